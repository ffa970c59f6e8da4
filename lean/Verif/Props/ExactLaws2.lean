import Verif.Props.BoardRemoval
import Verif.Props.Connector
import Verif.Props.Failures
import Verif.Props.Routes
/-!
# Where claims that are false fail, exactly (C14, C30, C60, C61, C64, C111)
-/

namespace Verif

open Spec

/-! ## C14 -/

/-- **C14 (exact).** A removal beside any number of appends ends as in a serial execution (the record gone, everything appended behind the others)
exactly if nothing was appended between its reading the end of the file and its cutting the file. -/
theorem C14_exact (rs : List Bytes) (hsz : Sized 256 rs) (index : Int64) (h0 : 0 ≤ index.toInt) (h1 : index.toInt < rs.length)
    (hn : rs.length ≤ 2 ^ 54) (s0 : RmState) (hs : removeStart (some rs.flatten) index = .ok s0) (acts : List RmAct) (s : RmState)
    (hr : s0.run acts = some s) (hd : s.phase = .done) :
    ∃ before window after, acts = before ++ .eof :: (window ++ .trunc :: after) ∧ OnlyAppends window ∧ OnlyAppends after ∧
      (s.file = (rs.eraseIdx index.toInt.toNat).flatten ++ appendedBy acts ↔ appendedBy window = []) := by
  obtain ⟨s0', hs', hw⟩ := C14_lost_window rs hsz index h0 h1 hn
  rw [hs] at hs'
  cases Res.ok.inj hs'
  obtain ⟨a, m, b, e, hm, hb, hf⟩ := hw acts s hr hd
  refine ⟨a, m, b, e, hm, hb, ?_⟩
  have hall : appendedBy acts = appendedBy a ++ (appendedBy m ++ appendedBy b) := by
    rw [e]
    simp [appendedBy_append, appendedBy]
  rw [hf, hall, List.append_assoc]
  constructor
  · intro h
    have := congrArg List.length h
    simp only [List.length_append] at this
    exact List.length_eq_zero_iff.mp (by omega)
  · intro h
    rw [h, List.nil_append]

/-- An append in the window, and one before it. -/
example : (∃ s, (⟨List.replicate 256 1, 256, 0, [], .copying⟩ : RmState).run [.eof, .append [3, 4], .trunc] = some s ∧ s.phase = .done ∧ s.file = []) ∧
    removeStart (some [List.replicate 256 1].flatten) 0 = .ok ⟨List.replicate 256 1, 256, 0, [], .copying⟩ :=
  ⟨⟨⟨[], 256, 0, [], .done⟩, by decide +kernel, rfl, rfl⟩, by decide +kernel⟩

/-! ## C30 -/

/-- **C30 (exact).** Opening a second database leaves the home of the first exactly if it goes over another connector or names the same home. -/
theorem C30_exact (r r1 r2 : Registry) (n1 n2 d1 d2 : Bytes) (h1 h2 : Nat) (ho : r.openDB n1 d1 = .ok (h1, r1))
    (ho2 : r1.openDB n2 d2 = .ok (h2, r2)) : homeOf r2 h1 = homeOf r1 h1 ↔ h2 ≠ h1 ∨ dsnHome d2 = dsnHome d1 := by
  obtain ⟨_, rfl⟩ := (openDB_eq r n1 d1 h1 r1).mp ho
  obtain ⟨_, rfl⟩ := (openDB_eq _ n2 d2 h2 r2).mp ho2
  simp only [homeOf, if_true]
  by_cases h : h1 = h2
  · subst h
    simp
  · simp [h, Ne.symm h]

/-- Two names for one home. -/
example : dsnHome (ascii "file:///b?UTMP=1993") = dsnHome (ascii "/b") ∧ dsnHome (ascii "/b/") ≠ dsnHome (ascii "/b") := by decide

/-! ## C60 -/

/-- **C60 (exact).** A token is accepted during the half hour after it was issued exactly if it was issued before 1970, and at any moment after its
issue exactly if it was issued before 00:30 on 1 January 1970. -/
theorem C60_exact (sign : Claims → Bytes) (st : ServerState) (r : Request) (t : Bytes) (h : serve sign st r = .ok (.accessToken t)) :
    ∃ c, t = sign c ∧ ∀ issued : Int, ((∀ now, issued ≤ now → now < issued + 1800 → Unexpired c now) ↔ issued ≤ 0) ∧
      ((∃ now, issued ≤ now ∧ Unexpired c now) ↔ issued < 1800) := by
  obtain ⟨c, hc, _, hn⟩ := C60_claims sign st r t h
  refine ⟨c, hc, fun issued => ⟨⟨fun hh => ?_, fun hh now _ h2 => (hn now).2 (by omega)⟩, ⟨?_, fun hh => ⟨issued, Int.le_refl _, (hn _).2 hh⟩⟩⟩⟩
  · have := (hn _).1 (hh (issued + 1799) (by omega) (by omega))
    omega
  · rintro ⟨now, h1, h2⟩
    have := (hn _).1 h2
    omega

/-- There are logins that get a token. -/
example (sign : Claims → Bytes) : ∃ st r t, serve sign st r = .ok (.accessToken t) := by
  obtain ⟨u, hu, ha⟩ := login_exists (ascii "pichu") (ascii "secret")
  exact ⟨⟨[u], []⟩, ⟨ascii "POST", ascii "/v1/token", [], ascii "pichu", ascii "secret"⟩, _,
    (C54_issued sign _ _ rfl rfl _).2 ⟨u, ⟨[], [], rfl, hu, by simp⟩, ha, rfl⟩⟩

/-! ## C61 -/

/-- **C61 (exact).** Changing hashes and the password typed leaves the log as it is exactly if the hash of the first user with the name given stays
as it is: that hash, and no other secret, is in the log. -/
theorem C61_exact (us vs : List Userec) (bs : List BoardHeader) (r : Request) (p : Bytes)
    (h : ListRel (fun u v => v = { u with password := v.password }) us vs) :
    postTokenLog ⟨us, bs⟩ r = postTokenLog ⟨vs, bs⟩ { r with password := p } ↔
      ∀ u v, FirstWithID us r.username u → FirstWithID vs r.username v → u.password = v.password := by
  simp only [← findUserecByID_ok, postTokenLog]
  induction h with
  | nil => simp [findUserecByID]
  | @cons u v us vs huv _ ih =>
    have hid : v.userID = u.userID := by rw [huv]
    by_cases hu : r.username = u.userID
    · have e1 : findUserecByID (u :: us) r.username = .ok u := by unfold findUserecByID; rw [if_pos hu]
      have e2 : findUserecByID (v :: vs) r.username = .ok v := by unfold findUserecByID; rw [if_pos (by rw [hid]; exact hu)]
      rw [e1, e2]
      constructor
      · intro hh a b ha hb
        cases Res.ok.inj ha
        cases Res.ok.inj hb
        simp only [List.cons.injEq, LogLine.password.injEq] at hh
        exact hh.2.1
      · intro hh
        have hp := hh u v rfl rfl
        have : v = u := by rw [huv, ← hp]
        rw [this]
    · have e1 : findUserecByID (u :: us) r.username = findUserecByID us r.username := by rw [findUserecByID, if_neg hu]
      have e2 : findUserecByID (v :: vs) r.username = findUserecByID vs r.username := by
        rw [findUserecByID, if_neg (by rw [hid]; exact hu)]
      rw [e1, e2]
      exact ih

/-- The hypothesis holds for two users of whom one gets another password. -/
example : ListRel (fun u v : Userec => v = { u with password := v.password }) [emptyRecord, emptyRecord]
    [emptyRecord, { emptyRecord with password := ascii "ab" }] := .cons rfl (.cons rfl .nil)

/-! ## C64 -/

/-- **C64 (exact).** Hidden boards are listed to nobody without a token exactly if there are none. -/
theorem C64_exact (sign : Claims → Bytes) (st : ServerState) :
    (∀ (r : Request) (bs : List BoardHeader), r.auth = [] → serve sign st r = .ok (.boards bs) → ∀ b ∈ bs, ¬ b.isHide = true) ↔
      ∀ b ∈ st.boardHeader, ¬ b.isHide = true := by
  constructor
  · intro h
    exact h _ _ rfl (C64_everyone sign st [] [] [])
  · intro h r bs _ hs
    rw [C64_partial sign st r bs hs]
    exact h

/-- One hidden board among two. -/
example : ¬ ∀ b ∈ [BoardHeader.zero, { BoardHeader.zero with brdattr := 0x10 }], ¬ b.isHide = true := by decide

/-! ## C111 -/

/-- The readers that do not look at the error of a read. -/
inductive Spec.Heedless : Sys Bool → Prop where
  | boards (n) : Heedless (openBoardHeaderFileSys n)
  | users (n) : Heedless (openUserecFileSys n)
  | formosa (n) : Heedless (openFormosaSys n)
  | bad (n) : Heedless (openBadLoginSys n)
  | articles (n) : Heedless (openFileHeaderFileSys n)

theorem heedless_honest {S : Op → Bool} {m : Sys Bool} (hm : Heedless m) (h1 : S .open = false) (h2 : S .close = false)
    (h5 : S .read = false) : Honest S m := by
  cases hm with
  | boards n => exact honest_unclosed h1 fun h => honest_readTurns _ _ (Or.inr h5) _
  | users n => exact honest_unclosed h1 fun h => honest_readTurns _ _ (Or.inr h5) _
  | formosa n => exact honest_unclosed h1 fun h => honest_readTurns _ _ (Or.inr h5) _
  | bad n => exact honest_unclosed h1 fun h => honest_scanLoop _ _ (Or.inr h5) _
  | articles n => exact honest_closing h1 h2 fun h => honest_readTurns _ _ (Or.inr h5) _

theorem removal_honest {S : Op → Bool} (n : Nat) (h1 : S .open = false) (h2 : S .close = false) (h3 : S .unlock = false)
    (h5 : S .truncate = false) : Honest S (removeBoardHeaderSys n) :=
  honest_closing h1 h2 fun _ => honest_check fun _ => honest_closing h1 h2 fun _ => honest_check fun _ => honest_check fun _ =>
    honest_then (honest_copyLoop _ _ _) (honest_check fun _ => honest_skip h5 fun _ => honest_skip h3 fun _ => honest_pure)

theorem lossy_cases {m : Sys Bool} (h : Lossy m) : Heedless m ∨ ∃ n, m = removeBoardHeaderSys n := by
  cases h with
  | boards n => exact .inl (.boards n)
  | users n => exact .inl (.users n)
  | formosa n => exact .inl (.formosa n)
  | bad n => exact .inl (.bad n)
  | articles n => exact .inl (.articles n)
  | removeBoard n => exact .inr ⟨n, rfl⟩

/-- **C111 (exact).** What may have failed in a call that reports success: a read of the five readers, or the cut of a removal; nothing else. Each of
these does happen (`C111_success_refuted`). -/
theorem C111_exact (m : Sys Bool) (hm : FileCall m) (w : Nat → Outcome) (t t' : List Ev) (e : m w t = (some true, t')) :
    ∃ u, t' = t ++ u ∧ ∀ x ∈ u, matters x.op = true → x.out = .fail →
      (x.op = .read ∧ Heedless m) ∨ (x.op = .truncate ∧ ∃ n, m = removeBoardHeaderSys n) := by
  by_cases hl : Lossy m
  · rcases lossy_cases hl with hh | ⟨n, rfl⟩
    · obtain ⟨u, h1, h2⟩ := heedless_honest (S := fun o => matters o && o != .read) hh rfl rfl rfl w t true t' e
      refine ⟨u, h1, fun x hx ho hf => .inl ⟨?_, hh⟩⟩
      have := List.all_eq_true.1 (h2 rfl) x hx
      apply Classical.byContradiction
      intro hne
      simp [ho, hf, hne] at this
    · obtain ⟨u, h1, h2⟩ := removal_honest (S := fun o => matters o && o != .truncate) n rfl rfl rfl rfl w t true t' e
      refine ⟨u, h1, fun x hx ho hf => .inr ⟨?_, n, rfl⟩⟩
      have := List.all_eq_true.1 (h2 rfl) x hx
      apply Classical.byContradiction
      intro hne
      simp [ho, hf, hne] at this
  · obtain ⟨u, h1, h2⟩ := C111_success_partial m hm hl w t t' e
    refine ⟨u, h1, fun x hx ho hf => ?_⟩
    have := List.all_eq_true.1 h2 x hx
    simp [ho, hf] at this

/-- A removal that reports success although the cut failed. -/
example : FileCall (removeBoardHeaderSys 1) ∧
    ∃ t, removeBoardHeaderSys 1 (fun i => if i = 5 then .eof else if i = 7 then .fail else .ok) [] = (some true, t) ∧ t.length = 11 :=
  ⟨.removeBoard 1, _, rfl, rfl⟩

end Verif
