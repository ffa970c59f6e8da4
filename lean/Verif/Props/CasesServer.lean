import Verif.Props.Exactly
import Verif.Props.ExactLaws2
import Verif.Props.Routes
import Verif.Props.ServerMain
/-!
# Cases: the service

Each theorem named is applied to something that meets its hypotheses.
-/

namespace Verif
open Spec

/-- A user whose hash is `ab` and nothing else: nobody can log in as that user. -/
def caseUser : Userec := { emptyRecord with userID := ascii "pichu", password := ascii "ab" }

def caseState : ServerState := ⟨[caseUser], []⟩

def caseSign : Claims → Bytes := fun c => c.subject

theorem caseFirst : FirstWithID caseState.userRecs (ascii "pichu") caseUser := ⟨[], [], rfl, rfl, by simp⟩

theorem caseSalt : AsciiSalt caseUser.password := ⟨97, 98, [], rfl, by decide, by decide⟩

theorem caseSalts : ∀ u ∈ caseState.userRecs, AsciiSalt u.password := fun u h => by
  rw [List.mem_singleton.mp h]; exact caseSalt

/-- A request for what is below `/v1/users/`. -/
def caseGet (p : Bytes) : Request := ⟨ascii "GET", p, ascii "bearer x", [], []⟩

/-- A login. -/
def caseLogin (u p : Bytes) : Request := ⟨ascii "POST", ascii "/v1/token", [], u, p⟩

/-- `C54_only_here`, `C60_claims`, `C60_epoch_partial`, `C60_exact`: a login with the right password. -/
example : ∃ st t, serve caseSign st (caseLogin (ascii "pichu") (ascii "secret")) = .ok (.accessToken t) ∧ t = ascii "pichu" := by
  obtain ⟨u, hu, ha⟩ := login_exists (ascii "pichu") (ascii "secret")
  have h : serve caseSign ⟨[u], []⟩ (caseLogin (ascii "pichu") (ascii "secret")) = .ok (.accessToken _) :=
    (C54_issued caseSign _ _ rfl rfl _).2 ⟨u, ⟨[], [], rfl, hu, by simp⟩, ha, rfl⟩
  have := C54_only_here _ _ _ _ h
  have := C60_epoch_partial _ _ _ _ h
  obtain ⟨c, h1, h2, -⟩ := C60_claims _ _ _ _ h
  exact ⟨_, _, h, h1.trans h2⟩

/-- `C54_refusal_partial`: a login under a name that nobody has. -/
example : ∃ e, serve caseSign caseState (caseLogin (ascii "guest") (ascii "x")) = .ok (.grantError e) :=
  C54_refusal_partial caseSign caseState _ rfl rfl caseSalts (by
    rintro ⟨u, ⟨pre, post, h, hu, -⟩, -⟩
    have : u ∈ caseState.userRecs := by rw [h]; simp
    rw [List.mem_singleton.mp this] at hu
    exact absurd hu (by decide))

/-- `C55_own_data_partial`: the information of the user. -/
example := C55_own_data_partial caseSign caseState (caseGet (ascii "/v1/users/pichu/information")) caseUser.userData
  ((C63_users caseSign caseState (caseGet (ascii "/v1/users/pichu/information")) [ascii "pichu", ascii "information"] false rfl
    (by unfold PlainSegment; decide) (.inr (by decide)) (by decide)).1 rfl caseUser caseFirst)

/-- `C56_returns_partial`: both ways. -/
example := C56_returns_partial caseSign caseState (caseGet (ascii "/v1/users/pichu/information")) (.inl (by decide))
example (r : Request) : (serve caseSign caseState r).Returns := C56_returns_partial caseSign caseState r (Or.inr (Or.inr caseSalts))

/-- `C59_no_leak`: another hash, the same answer. -/
example := C59_no_leak caseSign [caseUser] [{ caseUser with password := ascii "cd" }] [] (caseGet (ascii "/v1/users/pichu/information")) (.inl (by decide))
  (.cons ⟨rfl, rfl, rfl, rfl, rfl, rfl, rfl, rfl⟩ .nil)

/-- `C61_logged`. -/
example := C61_logged caseState (caseLogin (ascii "pichu") (ascii "secret")) caseUser caseFirst

/-- `C63_boards`, `C64_partial`: the list of boards. -/
example := (C63_boards caseSign caseState (caseGet (ascii "/v1/boards")) rfl).1 rfl
example := C64_partial caseSign caseState (caseGet (ascii "/v1/boards")) [] (by decide +kernel)

/-- `C63_classes`. -/
example := (C63_classes caseSign caseState (caseGet (ascii "/v1/classes/1")) [ascii "1"] false (by decide) (by unfold PlainSegment; decide) (.inr (by decide))
  (by decide)).1 rfl

/-- `C63_users`: the information of a user that is there, that of one that is not, the favourites, and something else. -/
example := (C63_users caseSign caseState (caseGet (ascii "/v1/users/pichu/information")) [ascii "pichu", ascii "information"] false rfl
  (by unfold PlainSegment; decide) (.inr (by decide)) (by decide)).1 rfl caseUser caseFirst
example := (C63_users caseSign caseState (caseGet (ascii "/v1/users/guest/information")) [ascii "guest", ascii "information"] false rfl
  (by unfold PlainSegment; decide) (.inr (by decide)) (by decide)).2.1 rfl (by decide)
example := (C63_users caseSign caseState (caseGet (ascii "/v1/users/pichu/favorites")) [ascii "pichu", ascii "favorites"] false rfl
  (by unfold PlainSegment; decide) (.inr (by decide)) (by decide)).2.2.1 rfl
example := (C63_users caseSign caseState (caseGet (ascii "/v1/users/pichu/mail")) [ascii "pichu", ascii "mail"] false rfl
  (by unfold PlainSegment; decide) (.inr (by decide)) (by decide)).2.2.2 (by decide) (by decide)

/-- `C63_nowhere`. -/
example := C63_nowhere caseSign caseState (caseGet (ascii "/v2/boards")) [ascii "v2", ascii "boards"] false (by decide) (by unfold PlainSegment; decide) (by decide)
  (by decide) (by decide) (by decide) (by decide)

/-- `C63_redirect`: a path with two slashes. -/
example := (C63_redirect caseSign caseState (caseGet (ascii "/v1//boards")) (by decide) (by decide)).2 (by decide)

/-- `C63_token_header`, `C63_no_token`: two words, three words, one word. -/
example := C63_token_header (caseGet []) (ascii "bearer") (ascii "x") [] (by decide) (by decide) (by decide)
example := C63_token_header ⟨[], [], ascii "bearer x y", [], []⟩ (ascii "bearer") (ascii "x") [ascii "y"] (by decide) (by decide) (by decide)
example := C63_no_token ⟨[], [], ascii "bearer", [], []⟩ (by decide)

/-- `C65_old_password`: a disk that has changed. -/
example : ∃ st t, answers caseSign st [.disk ⟨[]⟩, .request ⟨ascii "POST", ascii "/v1/token", [], ascii "pichu", ascii "secret"⟩] = [.ok (.accessToken t)] := by
  obtain ⟨u, hu, ha⟩ := login_exists (ascii "pichu") (ascii "secret")
  exact ⟨_, C65_old_password caseSign ⟨[u], []⟩ ⟨[]⟩ u (ascii "pichu") (ascii "secret") [] ⟨[], [], rfl, hu, by simp⟩ ha⟩

end Verif
