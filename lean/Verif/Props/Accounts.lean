import Verif.Model.Accounts
import Verif.Props.RefusedClients
import Verif.Props.Alone
import Verif.Proofs.Inodes
import Verif.Props.Outage
/-!
# C147, C148: accounts of the machine and the files that the program makes
-/

namespace Verif
open Spec

/-! ## The claims -/

/-- An account that is neither the owner nor the one that may do everything. -/
def Spec.Foreign (f : Perm) (a : Account) : Prop := a.uid ≠ 0 ∧ a.uid ≠ f.owner

/-- Neither the group nor others may write. -/
def Spec.Shut (f : Perm) : Prop := f.mode &&& 0o020 = 0 ∧ f.mode &&& 0o002 = 0

/-- Neither the group nor others may read. -/
def Spec.Private (f : Perm) : Prop := f.mode &&& 0o040 = 0 ∧ f.mode &&& 0o004 = 0

theorem foreign_write {f : Perm} {a : Account} (h : Foreign f a) (hs : Shut f) : f.mayWrite a = false := by
  unfold Perm.mayWrite Perm.allows Perm.bitFor
  obtain ⟨h1, h2⟩ : f.mode &&& 0o020 = 0 ∧ f.mode &&& 0o002 = 0 := hs
  rw [if_neg h.2]
  by_cases hg : a.isIn f.group = true
  · rw [if_pos hg, h1]; simp [h.1]
  · rw [if_neg hg, h2]; simp [h.1]

/-- Whether an account that is not the owner reads is decided by one bit. -/
theorem foreign_read {f : Perm} {a : Account} (h : Foreign f a) : f.mayRead a = true ↔ f.mode &&& (if a.isIn f.group = true then 0o040 else 0o004) ≠ 0 := by
  unfold Perm.mayRead Perm.allows Perm.bitFor
  rw [if_neg h.2]
  simp [h.1]

/-! ## Accounts are refusals -/

/-- **C147, what it is to run under accounts.** Clients that run under accounts do what clients do whose system calls are refused, so that what is
true of all of those (C139, C145) is true of them. -/
theorem C147_under (db : DB) (c : Codec) (who : Nat → Account) (s : Site) (perm : Path → Perm) (sched : List (Nat × Nat)) :
    ∃ sched' : List (Nat × Nat × Option String), sched'.map (fun x => (x.1, x.2.1)) = sched ∧
      (s.runUnder db c sched').1 = (s.runAs db c who perm sched).1 ∧ (s.runUnder db c sched').2 = (s.runAs db c who perm sched).2.2 := by
  induction sched generalizing s perm with
  | nil => exact ⟨[], rfl, rfl, rfl⟩
  | cons x sched ih =>
    obtain ⟨p, n⟩ := x
    obtain ⟨r, h1, h2⟩ : ∃ r, (s.stepUnder db c p n r).1 = (s.stepAs db c who perm p n).1 ∧
        (s.stepUnder db c p n r).2 = (s.stepAs db c who perm p n).2.2 := by
      unfold Site.stepAs
      split
      · exact ⟨none, rfl, rfl⟩
      · exact ⟨_, rfl, rfl⟩
    obtain ⟨sched', h3, h4, h5⟩ := ih (s.stepAs db c who perm p n).1 (s.stepAs db c who perm p n).2.1
    refine ⟨(p, n, r) :: sched', by rw [List.map_cons, h3], ?_, ?_⟩
    · simp only [Site.runUnder, Site.runAs]
      rw [h1, h4]
    · simp only [Site.runUnder, Site.runAs]
      rw [h1, h2, h5]

/-- **C147, lists.** Clients under any accounts add to lists and articles: the file holds what it held, followed by exactly what was answered with
success (C145), whoever may write to it. -/
theorem C147_added (db : DB) (c : Codec) (who : Nat → Account) (perm : Path → Perm) (l : Path) (fs : FS) (todo : Nat → List Call)
    (sched : List (Nat × Nat)) (h : ∀ p, ∀ op ∈ todo p, (∃ bs, addedTo db c l op = some bs) ∨ LeavesAlone db l op)
    (hidle : ∀ p, (((fresh fs todo).runAs db c who perm sched).1.clients p).now = none) :
    ∃ order : List (Nat × Bytes), bytesAt ((fresh fs todo).runAs db c who perm sched).1.fs l = bytesAt fs l ++ (order.map (·.2)).flatten ∧
      ∀ p, partOf p order = (succeeded p none ((fresh fs todo).runAs db c who perm sched).2.2).filterMap (addedTo db c l) := by
  obtain ⟨sched', -, h1, h2⟩ := C147_under db c who (fresh fs todo) perm sched
  obtain ⟨order, h3, h4⟩ := C145_added db c l fs todo sched' h
  refine ⟨order, by rw [← h1, h3], fun p => ?_⟩
  obtain ⟨o, h5, -, h6⟩ := h4 p
  rw [h5, h6 (by rw [h1]; exact hidle p), List.append_nil, h2]

/-! ## The modes of new files -/

theorem made_and (a : Account) (dir : Perm) (m b : UInt32) : (Perm.made a dir m).mode &&& b = (m &&& b) &&& ~~~ a.umask := by
  show (m &&& ~~~ a.umask) &&& b = _
  rw [UInt32.and_assoc, UInt32.and_comm (~~~ a.umask), ← UInt32.and_assoc]

theorem made_shut (a : Account) (dir : Perm) : Shut (.made a dir 0o644) := by
  unfold Shut
  rw [made_and, made_and, show (0o644 : UInt32) &&& 0o020 = 0 from by decide, show (0o644 : UInt32) &&& 0o002 = 0 from by decide, UInt32.zero_and]
  exact ⟨rfl, rfl⟩

/-- A bit is taken away iff it is in the mask. -/
theorem and_not_zero {b u : UInt32} {i : Nat} (hb : b.toBitVec = BitVec.twoPow 32 i) (hi : BitVec.twoPow 32 i ≠ 0#32) :
    b &&& ~~~ u = 0 ↔ u &&& b = b := by
  rw [← UInt32.toBitVec_inj, ← UInt32.toBitVec_inj]
  show b.toBitVec &&& ~~~ u.toBitVec = 0#32 ↔ u.toBitVec &&& b.toBitVec = b.toBitVec
  rw [hb, BitVec.and_comm, BitVec.and_twoPow, BitVec.and_twoPow, BitVec.getLsbD_not]
  have hi' : i < 32 := by
    refine Nat.lt_of_not_le fun h => hi ?_
    rw [BitVec.twoPow_eq]
    exact BitVec.eq_of_toNat_eq (by
      rw [BitVec.toNat_shiftLeft, Nat.shiftLeft_eq, BitVec.toNat_ofNat, BitVec.toNat_ofNat]
      have : 2 ^ 32 ∣ 1 % 2 ^ 32 * 2 ^ i := Nat.dvd_trans (Nat.pow_dvd_pow 2 h) (Nat.dvd_mul_left ..)
      rw [Nat.mod_eq_zero_of_dvd this, Nat.zero_mod])
  cases u.toBitVec.getLsbD i <;> simp [hi', hi, Ne.symm hi]

theorem made_private (a : Account) (dir : Perm) (grp : Bool) : (Perm.made a dir 0o644).mode &&& (if grp = true then 0o040 else 0o004) = 0 ↔
    a.umask &&& (if grp = true then 0o040 else 0o004) = (if grp = true then 0o040 else 0o004) := by
  rw [made_and]
  cases grp
  · rw [if_neg (by decide), show (0o644 : UInt32) &&& 0o004 = 0o004 from by decide, and_not_zero (i := 2) (by decide) (by decide)]
  · rw [if_pos rfl, show (0o644 : UInt32) &&& 0o040 = 0o040 from by decide, and_not_zero (i := 5) (by decide) (by decide)]

/-- A system call that makes a file where there was none is one of the three. -/
theorem step_makes {cwd l : Path} {fs : FS} {n : Nat} {e : Option String} {j : Job} (h : fs.get l = none)
    (h' : ((j.stepUnder cwd fs n e).1.get l).isSome = true) : j.askedMode = 0o644 := by
  have no : ∀ {fs' : FS}, fs' = fs → (fs'.get l).isSome = true → False := by
    rintro _ rfl h'
    rw [h] at h'; cases h'
  cases e with
  | some e => cases j <;> first | rfl | exact (no rfl h').elim
  | none =>
    simp only [Job.stepUnder] at h'
    cases j with
    | openMake p k => rfl
    | openTrunc p k => rfl
    | openExcl p k => rfl
    | done r => exact (no rfl h').elim
    | stat p k => exact (no rfl h').elim
    | openRead p k => exact (no rfl h').elim
    | openWrite p k => exact (no rfl h').elim
    | read l' size got pos k =>
      simp only [Job.step] at h'
      split at h'
      · split at h' <;> exact (no rfl h').elim
      · split at h' <;> exact (no rfl h').elim
      · exact (no rfl h').elim
    | append l' bs k =>
      simp only [Job.step] at h'
      split at h'
      · next d hd =>
        by_cases e : l' = l
        · subst e; rw [h] at hd; cases hd
        · rw [get_set_ne e, h] at h'; cases h'
      · exact (no rfl h').elim
    | put l' bs k =>
      simp only [Job.step] at h'
      split at h'
      · next d hd =>
        by_cases e : l' = l
        · subst e; rw [h] at hd; cases hd
        · rw [get_set_ne e, h] at h'; cases h'
      · exact (no rfl h').elim
    | unlink p k =>
      simp only [Job.step] at h'
      split at h'
      · next fs' ho =>
        have del : ∀ l', ((fs.del l').get l).isSome = true → False := by
          intro l' h2
          by_cases e : l' = l
          · subst e
            unfold FS.get FS.del at h2
            unfold FS.get at h
            split at h
            · cases h
            · rw [if_neg (by assumption), FS.lookup_filter, if_pos rfl] at h2
              cases h2
          · rw [get_del_ne e, h] at h2; cases h2
        unfold FS.remove at ho
        obtain ⟨l', h1, h2⟩ := Res.bind_eq_ok.mp ho
        split at h2
        · cases h2
        · cases h2; exact (del _ h').elim
        · split at h2
          · cases h2
          · split at h2
            · cases h2
            · cases h2; exact (del _ h').elim
      · exact (no rfl h').elim
      · exact (no rfl h').elim
      · exact (no rfl h').elim

/-- One step of a client, as a step of its job. -/
theorem stepAs_cases (db : DB) (c : Codec) (who : Nat → Account) (s : Site) (perm : Path → Perm) (p n : Nat) :
    ((s.stepAs db c who perm p n).1.fs = s.fs ∧ (s.stepAs db c who perm p n).2.1 = perm) ∨
    ∃ j, (s.clients p).now = some j ∧
      (s.stepAs db c who perm p n).1.fs = (j.stepUnder db.cwd s.fs n (j.denied (who p) db.cwd s.fs perm)).1 ∧
      (s.stepAs db c who perm p n).2.1 = j.permAfter (who p) s.fs (s.stepAs db c who perm p n).1.fs perm := by
  unfold Site.stepAs
  cases hn : (s.clients p).now with
  | none =>
    refine .inl ⟨?_, rfl⟩
    simp only [Site.stepUnder]
    split
    · rfl
    · rfl
    · next h => rw [h] at hn; cases hn
    · next h => rw [h] at hn; cases hn
  | some j =>
    refine .inr ⟨j, rfl, ?_, rfl⟩
    simp only [Site.stepUnder]
    split
    · next h => rw [h] at hn; cases hn
    · next h => rw [h] at hn; cases hn
    · next h =>
      rw [h] at hn; cases hn
      rfl
    · next h =>
      rw [h] at hn; cases hn
      rfl

/-- **C147, the mode of what is made.** A file that was not there and is there after any calls of any clients belongs to the account of one of
them, with the mode 0644 less the mask of that client; so neither its group nor others may write to it, whatever the masks. -/
theorem C147_made (db : DB) (c : Codec) (who : Nat → Account) (s : Site) (perm : Path → Perm) (sched : List (Nat × Nat)) (l : Path)
    (h : s.fs.get l = none) (h' : ((s.runAs db c who perm sched).1.fs.get l).isSome = true) :
    (∃ p g, (s.runAs db c who perm sched).2.1 l = ⟨(who p).uid, g, 0o644 &&& ~~~ (who p).umask⟩) ∧ Shut ((s.runAs db c who perm sched).2.1 l) := by
  have key : ∀ (sched : List (Nat × Nat)) (s : Site) (perm : Path → Perm),
      ((s.fs.get l).isSome = true → ∃ p f, perm l = .made (who p) f 0o644) →
      ((s.runAs db c who perm sched).1.fs.get l).isSome = true → ∃ p f, (s.runAs db c who perm sched).2.1 l = .made (who p) f 0o644 := by
    intro sched
    induction sched with
    | nil => exact fun s perm h h' => h h'
    | cons x sched ih =>
      obtain ⟨p, n⟩ := x
      intro s perm h h'
      refine ih (s.stepAs db c who perm p n).1 (s.stepAs db c who perm p n).2.1 (fun hs => ?_) h'
      rcases stepAs_cases db c who s perm p n with ⟨e1, e2⟩ | ⟨j, hj, e1, e2⟩
      · rw [e2]; exact h (by rw [← e1]; exact hs)
      · rw [e2]
        unfold Job.permAfter
        by_cases hg : (s.fs.get l).isNone = true
        · rw [if_pos ⟨hg, hs⟩]
          rw [e1] at hs
          exact ⟨p, _, by rw [step_makes (Option.isNone_iff_eq_none.mp hg) hs]⟩
        · rw [if_neg fun x => hg x.1]
          exact h (by cases hx : s.fs.get l <;> simp_all)
  obtain ⟨p, f, hp⟩ := key sched s perm (fun hs => by rw [h] at hs; cases hs) h'
  exact ⟨⟨p, _, hp⟩, hp ▸ made_shut _ _⟩

/-! ## Nobody else changes a file -/

theorem denied_none {a : Account} {cwd : Path} {fs : FS} {perm : Path → Perm} {j : Job} {p : Bytes} (hn : j.named = some p)
    (h : j.denied a cwd fs perm = none) : j.deniedThere a cwd fs perm = none ∧ Job.barred a cwd fs perm p = false := by
  unfold Job.denied at h
  rw [hn] at h
  simp only at h
  split at h
  · cases h
  · next hb => exact ⟨h, Bool.eq_false_iff.mpr hb⟩

theorem denied_there {a : Account} {cwd : Path} {fs : FS} {perm : Path → Perm} {j : Job} {p : Bytes} (hn : j.named = some p)
    (h : Job.barred a cwd fs perm p = false) : j.denied a cwd fs perm = j.deniedThere a cwd fs perm := by
  unfold Job.denied
  rw [hn]
  simp only [h]
  rfl

/-- The job leaves what is at `l` alone as long as it is not let in there. -/
def Barred (l : Path) : Job → Prop
  | .done _ => True
  | .stat _ k => ∀ b, Barred l (k b)
  | .openRead _ k => ∀ r : Res Path, Barred l (k r)
  | .openWrite _ k => ∀ r : Res Path, r ≠ .ok l → Barred l (k r)
  | .openMake _ k => ∀ r : Res Path, r ≠ .ok l → Barred l (k r)
  | .openTrunc _ k => ∀ r : Res Path, r ≠ .ok l → Barred l (k r)
  | .openExcl _ k => ∀ b, Barred l (k b)
  | .read _ _ _ _ k => ∀ r, Barred l (k r)
  | .append l' _ k => l' ≠ l ∧ Barred l k
  | .put l' _ k => l' ≠ l ∧ Barred l k
  | .unlink _ k => ∀ r, Barred l (k r)

theorem barred_orStop {l : Path} {α : Type} {k : α → Job} {r : Res α} (h : ∀ a, r = .ok a → Barred l (k a)) : Barred l (Job.orStop k r) := by
  cases r with
  | ok a => exact h a rfl
  | err e => trivial
  | panic => trivial
  | diverge => trivial

theorem barred_readList {l : Path} {α : Type} {p : Bytes} {size : Nat} {parse : Bytes → Res α} {k : List α → Job} (hk : ∀ x, Barred l (k x)) :
    Barred l (Job.readList p size parse k) :=
  fun _ => barred_orStop fun _ _ _ => barred_orStop fun _ _ => barred_orStop fun _ _ => hk _

theorem barred_readWhole {l : Path} {p : Bytes} {k : Bytes → Job} (hk : ∀ x, Barred l (k x)) : Barred l (Job.readWhole p k) :=
  fun _ => barred_orStop fun _ _ _ => barred_orStop fun _ _ => hk _

theorem barred_tryNames {db : DB} {l : Path} {b o d t : Bytes} {draw : Nat → Int × Fin 4096} :
    ∀ fuel k, Barred l (Job.tryNames db b o d t draw fuel k)
  | 0, _ => trivial
  | fuel + 1, k => by
    unfold Job.tryNames
    refine barred_orStop fun p hp r => ?_
    cases r with
    | true => trivial
    | false => exact barred_tryNames fuel (k + 1)

theorem barred_start (db : DB) (c : Codec) (l : Path) (op : Call) : Barred l (Job.start db c op) := by
  have make : ∀ {x : Res Bytes} {w : Path → Job}, (∀ l', l' ≠ l → Barred l (w l')) →
      Barred l (Job.orStop (fun p => .openMake p (Job.orStop w)) x) := fun hw =>
    barred_orStop fun p hp r hr => barred_orStop fun l' e => hw l' fun e' => hr (by rw [e, e'])
  cases op with
  | readUsers => unfold Job.start; exact barred_orStop fun p hp => barred_readList fun _ => trivial
  | readFavourites u =>
    refine barred_orStop fun p hp r => ?_
    cases r with
    | false => trivial
    | true =>
      exact barred_readWhole fun _ => barred_orStop fun _ _ => barred_orStop fun q hq => barred_readList fun _ => barred_orStop fun _ _ => trivial
  | readBoards => unfold Job.start; exact barred_orStop fun p hp => barred_readList fun _ => trivial
  | listArticles b =>
    refine barred_orStop fun p hp r => ?_
    cases r with
    | err e => trivial
    | ok l => exact fun _ => barred_orStop fun _ _ => barred_orStop fun _ _ => trivial
    | panic => trivial
    | diverge => trivial
  | listTreasure b ds => exact barred_orStop fun p hp => barred_readList fun _ => trivial
  | readArticle b f => exact barred_orStop fun p hp => barred_readWhole fun _ => trivial
  | readTreasure b ds f => exact barred_orStop fun p hp => barred_readWhole fun _ => trivial
  | readDraft u d =>
    refine barred_orStop fun p hp r => ?_
    cases r with
    | false => trivial
    | true => exact barred_readWhole fun _ => trivial
  | addBoard r => unfold Job.start; exact make fun l' hl => ⟨hl, trivial⟩
  | createArticle b o d t draw fuel => exact barred_tryNames fuel 0
  | addRecord b r => exact make fun l' hl => ⟨hl, trivial⟩
  | writeArticle b f x => exact make fun l' hl => ⟨hl, trivial⟩
  | appendArticle b f x =>
    exact barred_orStop fun p hp r hr => barred_orStop fun l' e => ⟨fun e' => hr (by rw [e, e']), trivial⟩
  | deleteDraft u d => exact barred_orStop fun p hp => fun _ => barred_orStop fun _ _ => trivial
  | writeDraft u d x =>
    exact barred_orStop fun p hp => fun r hr => barred_orStop fun l' e => ⟨fun e' => hr (by rw [e, e']), trivial⟩

/-- A directory in which there is something stays. -/
theorem dir_step {cwd q : Path} {fs : FS} (hq : fs.get q = some .dir) (hc : fs.hasChild q = true) (n : Nat) (e : Option String) (j : Job) :
    (j.stepUnder cwd fs n e).1.get q = some .dir := by
  have ne : ∀ {l' : Path}, fs.get l' ≠ some .dir → l' ≠ q := fun h e => h (e ▸ hq)
  cases e with
  | some e => cases j <;> exact hq
  | none =>
    simp only [Job.stepUnder]
    cases j with
    | openMake p k =>
      simp only [Job.step]
      split
      · next l' d ho =>
        simp only
        split
        · rw [get_set_ne (ne (FS.openCreate_ok ho).2.1)]; exact hq
        · exact hq
      all_goals exact hq
    | openTrunc p k =>
      simp only [Job.step]
      split
      · next l' d ho =>
        rw [get_set_ne (ne (FS.openCreate_ok ho).2.1)]; exact hq
      all_goals exact hq
    | openExcl p k =>
      simp only [Job.step]
      split
      · next fs' ho =>
        unfold FS.createExcl at ho
        obtain ⟨l', h1, h2⟩ := Res.bind_eq_ok.mp ho
        split at h2
        · next hg =>
          cases h2
          rw [get_set_ne (ne (by rw [hg]; simp))]; exact hq
        · cases h2
      · exact hq
    | done r => exact hq
    | stat p k => exact hq
    | openRead p k => exact hq
    | openWrite p k => exact hq
    | read l' size got pos k =>
      simp only [Job.step]
      split
      · split <;> exact hq
      · split <;> exact hq
      · exact hq
    | append l' bs k =>
      simp only [Job.step]
      split
      · next hg => rw [get_set_ne (ne (by rw [hg]; simp))]; exact hq
      · exact hq
    | put l' bs k =>
      simp only [Job.step]
      split
      · next hg => rw [get_set_ne (ne (by rw [hg]; simp))]; exact hq
      · exact hq
    | unlink p k =>
      simp only [Job.step]
      split
      · next fs' ho =>
        unfold FS.remove at ho
        obtain ⟨l', h1, h2⟩ := Res.bind_eq_ok.mp ho
        split at h2
        · cases h2
        · next hg => cases h2; rw [get_del_ne (ne (by rw [hg]; simp))]; exact hq
        · split at h2
          · cases h2
          · split at h2
            · cases h2
            · next hh => cases h2; rw [get_del_ne (fun e => hh (by rw [e]; exact hc))]; exact hq
      all_goals exact hq

/-- Removing is writing to the directory, and opening for writing is writing. -/
theorem barred_step {cwd l : Path} {j : Job} (hj : Barred l j) {fs : FS} {perm : Path → Perm} {a : Account} {d : Bytes} (n : Nat)
    (hf : fs.get l = some (.file d)) (h1 : (perm l).mayWrite a = false) (h2 : (perm l.dropLast).mayWrite a = false) :
    (j.stepUnder cwd fs n (j.denied a cwd fs perm)).1.get l = some (.file d) ∧
    Barred l (j.stepUnder cwd fs n (j.denied a cwd fs perm)).2 := by
  cases j with
  | done r => exact ⟨hf, trivial⟩
  | stat p k =>
    cases Job.denied a cwd fs perm (.stat p k) with
    | none => exact ⟨hf, hj _⟩
    | some e => exact ⟨hf, hj _⟩
  | openRead p k =>
    cases Job.denied a cwd fs perm (.openRead p k) with
    | none => exact ⟨hf, hj _⟩
    | some e => exact ⟨hf, hj _⟩
  | openWrite p k =>
    cases he : Job.denied a cwd fs perm (.openWrite p k) with
    | some e => exact ⟨hf, hj _ nofun⟩
    | none =>
      have he := (denied_none rfl he).1
      refine ⟨hf, hj _ fun e => ?_⟩
      simp only [Job.deniedThere, e, Job.denyUnless, h1] at he
      cases he
  | openMake p k =>
    cases he : Job.denied a cwd fs perm (.openMake p k) with
    | some e => exact ⟨hf, hj _ nofun⟩
    | none =>
      have he := (denied_none rfl he).1
      simp only [Job.stepUnder, Job.step]
      simp only [Job.deniedThere] at he
      split
      · next l' d' ho =>
        have hne : l' ≠ l := by
          rintro rfl
          rw [ho] at he
          simp only [hf, Option.isSome_some, if_true, Job.denyUnless, h1] at he
          cases he
        refine ⟨?_, hj _ fun e => hne (by cases e; rfl)⟩
        simp only
        split
        · rw [get_set_ne hne]; exact hf
        · exact hf
      · exact ⟨hf, hj _ nofun⟩
      · exact ⟨hf, hj _ nofun⟩
      · exact ⟨hf, hj _ nofun⟩
  | openTrunc p k =>
    cases he : Job.denied a cwd fs perm (.openTrunc p k) with
    | some e => exact ⟨hf, hj _ nofun⟩
    | none =>
      have he := (denied_none rfl he).1
      simp only [Job.stepUnder, Job.step]
      simp only [Job.deniedThere] at he
      split
      · next l' d' ho =>
        have hne : l' ≠ l := by
          rintro rfl
          rw [ho] at he
          simp only [hf, Option.isSome_some, if_true, Job.denyUnless, h1] at he
          cases he
        exact ⟨by rw [get_set_ne hne]; exact hf, hj _ fun e => hne (by cases e; rfl)⟩
      · exact ⟨hf, hj _ nofun⟩
      · exact ⟨hf, hj _ nofun⟩
      · exact ⟨hf, hj _ nofun⟩
  | openExcl p k =>
    cases he : Job.denied a cwd fs perm (.openExcl p k) with
    | some e => exact ⟨hf, hj _⟩
    | none =>
      have he := (denied_none rfl he).1
      simp only [Job.stepUnder, Job.step]
      split
      · next fs' ho =>
        refine ⟨?_, hj _⟩
        unfold FS.createExcl at ho
        obtain ⟨l', h3, h4⟩ := Res.bind_eq_ok.mp ho
        split at h4
        · next hg =>
          cases h4
          rw [get_set_ne (by rintro rfl; rw [hf] at hg; cases hg)]; exact hf
        · cases h4
      · exact ⟨hf, hj _⟩
  | read l' size got pos k =>
    simp only [Job.denied, Job.named, Job.stepUnder, Job.step]
    split
    · split
      · exact ⟨hf, hj⟩
      · exact ⟨hf, hj _⟩
    · split
      · exact ⟨hf, hj _⟩
      · exact ⟨hf, hj⟩
    · exact ⟨hf, hj _⟩
  | append l' bs k =>
    simp only [Job.denied, Job.named, Job.stepUnder, Job.step]
    split
    · exact ⟨by rw [get_set_ne hj.1]; exact hf, hj.2⟩
    · exact ⟨hf, hj.2⟩
  | put l' bs k =>
    simp only [Job.denied, Job.named, Job.stepUnder, Job.step]
    split
    · exact ⟨by rw [get_set_ne hj.1]; exact hf, hj.2⟩
    · exact ⟨hf, hj.2⟩
  | unlink p k =>
    cases he : Job.denied a cwd fs perm (.unlink p k) with
    | some e => exact ⟨hf, hj _⟩
    | none =>
      have he := (denied_none rfl he).1
      simp only [Job.stepUnder, Job.step]
      simp only [Job.deniedThere] at he
      split
      · next fs' ho =>
        refine ⟨?_, hj _⟩
        rw [ho] at he
        unfold FS.remove at ho
        obtain ⟨l', h3, h4⟩ := Res.bind_eq_ok.mp ho
        have hne : l' ≠ l := by
          rintro rfl
          rw [← FS.lookup_eq h3] at he
          simp only [Job.denyUnless, h2] at he
          cases he
        split at h4
        · cases h4
        · cases h4; rw [get_del_ne hne]; exact hf
        · split at h4
          · cases h4
          · split at h4
            · cases h4
            · cases h4; rw [get_del_ne hne]; exact hf
      · exact ⟨hf, hj _⟩
      · exact ⟨hf, hj _⟩
      · exact ⟨hf, hj _⟩

/-- **C147, nobody else changes a file.** Whatever calls are made, in whatever order of system calls, by clients whose accounts may write neither to
the file nor to its directory: it keeps its content, its owner and its mode. -/
theorem C147_kept (db : DB) (c : Codec) (who : Nat → Account) (s : Site) (perm : Path → Perm) (l : Path) (d : Bytes)
    (hf : s.fs.get l = some (.file d)) (hd : s.fs.get l.dropLast = some .dir) (sched : List (Nat × Nat))
    (h : ∀ x ∈ sched, (s.clients x.1).now = none ∧ (perm l).mayWrite (who x.1) = false ∧ (perm l.dropLast).mayWrite (who x.1) = false) :
    (s.runAs db c who perm sched).1.fs.get l = some (.file d) ∧ (s.runAs db c who perm sched).2.1 l = perm l := by
  have hl : l ≠ [] := by rintro rfl; simp [FS.get] at hf
  have key : ∀ (sched : List (Nat × Nat)) (s : Site) (pm : Path → Perm), s.fs.get l = some (.file d) → s.fs.get l.dropLast = some .dir →
      pm l = perm l → pm l.dropLast = perm l.dropLast →
      (∀ x ∈ sched, (∀ j, (s.clients x.1).now = some j → Barred l j) ∧ (perm l).mayWrite (who x.1) = false ∧
        (perm l.dropLast).mayWrite (who x.1) = false) →
      (s.runAs db c who pm sched).1.fs.get l = some (.file d) ∧ (s.runAs db c who pm sched).2.1 l = perm l := by
    intro sched
    induction sched with
    | nil => exact fun s pm h1 _ h2 _ _ => ⟨h1, h2⟩
    | cons x sched ih =>
      obtain ⟨p, n⟩ := x
      intro s pm h1 h2 h3 h4 h5
      obtain ⟨hb, hw1, hw2⟩ := h5 (p, n) (by simp)
      refine ih (s.stepAs db c who pm p n).1 (s.stepAs db c who pm p n).2.1 ?_ ?_ ?_ ?_ ?_
      · rcases stepAs_cases db c who s pm p n with ⟨e1, e2⟩ | ⟨j, hj, e1, e2⟩
        · rw [e1]; exact h1
        · rw [e1]; exact (barred_step (hb j hj) n h1 (by rw [h3]; exact hw1) (by rw [h4]; exact hw2)).1
      · rcases stepAs_cases db c who s pm p n with ⟨e1, e2⟩ | ⟨j, hj, e1, e2⟩
        · rw [e1]; exact h2
        · rw [e1]
          refine dir_step h2 (FS.hasChild_iff.mpr ⟨l, ?_, ?_, by rw [h1]; rfl⟩) n _ j
          · have := List.length_pos_iff.mpr hl
            rw [List.length_dropLast]; omega
          · rw [List.dropLast_eq_take, List.length_take, Nat.min_eq_left (Nat.sub_le ..)]
      · rcases stepAs_cases db c who s pm p n with ⟨e1, e2⟩ | ⟨j, hj, e1, e2⟩
        · rw [e2]; exact h3
        · rw [e2]
          unfold Job.permAfter
          rw [if_neg (by rw [h1]; simp)]; exact h3
      · rcases stepAs_cases db c who s pm p n with ⟨e1, e2⟩ | ⟨j, hj, e1, e2⟩
        · rw [e2]; exact h4
        · rw [e2]
          unfold Job.permAfter
          rw [if_neg (by rw [h2]; simp)]; exact h4
      · intro x hx
        obtain ⟨hb', hw'⟩ := h5 x (by simp [hx])
        refine ⟨fun j hj => ?_, hw'⟩
        by_cases e : x.1 = p
        · rw [e] at hj
          have hbp := hb
          simp only at hbp
          unfold Site.stepAs at hj
          cases hn : (s.clients p).now with
          | none =>
            rw [hn] at hj
            simp only [Site.stepUnder] at hj
            split at hj
            · rw [hn] at hj; cases hj
            · simp only [Site.setClient, if_true] at hj
              cases hj
              exact barred_start ..
            · next h => rw [h] at hn; cases hn
            · next h => rw [h] at hn; cases hn
          | some j0 =>
            rw [hn] at hj
            simp only [Site.stepUnder] at hj
            split at hj
            · next h => rw [h] at hn; cases hn
            · next h => rw [h] at hn; cases hn
            · simp only [Site.setClient, if_true] at hj
              cases hj
            · next h =>
              simp only [Site.setClient, if_true] at hj
              rw [h] at hn
              cases hn
              cases hj
              exact (barred_step (hbp _ (by rw [h])) n h1 (by rw [h3]; exact hw1) (by rw [h4]; exact hw2)).2
        · refine hb' j ?_
          rw [← hj]
          unfold Site.stepAs
          split
          · simp only [Site.stepUnder]
            split <;> simp [Site.setClient, e]
          · simp only [Site.stepUnder]
            split <;> simp [Site.setClient, e]
  exact key sched s perm hf hd rfl rfl fun x hx => ⟨fun j hj => (by rw [(h x hx).1] at hj; cases hj), (h x hx).2⟩

/-- The full claim of C147: what the program makes cannot be written to by other accounts, be it by a call of the database or by making a cache. -/
def Spec.MadeShut : Prop :=
  (∀ (db : DB) (c : Codec) (who : Nat → Account) (s : Site) (perm : Path → Perm) (sched : List (Nat × Nat)) (l : Path), s.fs.get l = none →
    ((s.runAs db c who perm sched).1.fs.get l).isSome = true → Shut ((s.runAs db c who perm sched).2.1 l)) ∧
  ∀ (a : Account) (dir : Perm), Shut (createMmapPerm a dir) ∧ Shut (createKeyPerm a)

/-- **C147 is false of the code**: a cache file is made with mode 0666, so that without a mask everybody may write to it. -/
theorem C147_refuted : ¬ Spec.MadeShut := by
  intro h
  exact absurd ((h.2 ⟨1000, 1000, [], 0⟩ ⟨0, 0, 0o1777⟩).1.2) (by show ¬ ((0o666 : UInt32) &&& ~~~ 0) &&& 0o002 = 0; decide)

/-- **C147, caches.** A cache file is safe from other accounts iff the mask takes the writing of both the group and the others away; a segment always
is, and from reading too. -/
theorem C147_cache (a : Account) (dir : Perm) :
    (Shut (createMmapPerm a dir) ↔ a.umask &&& 0o020 = 0o020 ∧ a.umask &&& 0o002 = 0o002) ∧ Shut (createKeyPerm a) ∧ Private (createKeyPerm a) := by
  refine ⟨?_, ⟨by show (0o600 : UInt32) &&& 0o020 = 0; decide, by show (0o600 : UInt32) &&& 0o002 = 0; decide⟩,
    by show (0o600 : UInt32) &&& 0o040 = 0; decide, by show (0o600 : UInt32) &&& 0o004 = 0; decide⟩
  unfold Shut createMmapPerm
  rw [made_and, made_and, show (0o666 : UInt32) &&& 0o020 = 0o020 from by decide, show (0o666 : UInt32) &&& 0o002 = 0o002 from by decide,
    and_not_zero (i := 4) (by decide) (by decide), and_not_zero (i := 1) (by decide) (by decide)]

/-- **C147** (partial: the files that calls of the database make, in directories that others may not write to). Once such a file is there, no calls
of other accounts change or remove it. -/
theorem C147_partial (db : DB) (c : Codec) (who : Nat → Account) (s : Site) (perm : Path → Perm) (sched sched' : List (Nat × Nat)) (l : Path)
    (d : Bytes) (hnew : s.fs.get l = none) (hf : (s.runAs db c who perm sched).1.fs.get l = some (.file d))
    (hd : (s.runAs db c who perm sched).1.fs.get l.dropLast = some .dir) (hs : Shut ((s.runAs db c who perm sched).2.1 l.dropLast))
    (h : ∀ x ∈ sched', ((s.runAs db c who perm sched).1.clients x.1).now = none ∧ Foreign ((s.runAs db c who perm sched).2.1 l) (who x.1) ∧
      Foreign ((s.runAs db c who perm sched).2.1 l.dropLast) (who x.1)) :
    ((s.runAs db c who perm sched).1.runAs db c who (s.runAs db c who perm sched).2.1 sched').1.fs.get l = some (.file d) :=
  (C147_kept db c who _ _ l d hf hd sched' fun x hx => ⟨(h x hx).1,
    foreign_write (h x hx).2.1 (C147_made db c who s perm sched l hnew (by rw [hf]; rfl)).2, foreign_write (h x hx).2.2 hs⟩).1

/-! ## C148: drafts -/

/-- The job only reads what is open. -/
def Quiet : Job → Prop
  | .done _ => True
  | .read _ _ _ _ k => ∀ r, Quiet (k r)
  | _ => False

theorem quiet_step {cwd : Path} {fs : FS} {n : Nat} {j : Job} (h : Quiet j) : (j.step cwd fs n).1 = fs ∧ Quiet (j.step cwd fs n).2 := by
  cases j with
  | done r => exact ⟨rfl, trivial⟩
  | read l size got pos k =>
    simp only [Job.step]
    split
    · split
      · exact ⟨rfl, h⟩
      · exact ⟨rfl, h _⟩
    · split
      · exact ⟨rfl, h _⟩
      · exact ⟨rfl, h⟩
    · exact ⟨rfl, h _⟩
  | _ => exact h.elim

theorem quiet_playAs (a : Account) {cwd : Path} (ns : List Nat) : ∀ {fs : FS} {perm : Path → Perm} {j : Job}, Quiet j →
    (Job.playAs a cwd perm ns fs j).2.2 = (Job.play cwd ns fs j).2 := by
  induction ns with
  | nil => exact fun _ => rfl
  | cons n ns ih =>
    intro fs perm j h
    have hd : j.denied a cwd fs perm = none := by cases j <;> first | rfl | exact h.elim
    simp only [Job.playAs, Job.play, hd, Job.stepUnder]
    exact ih (quiet_step h).2

/-- The full claim of C148: a draft that was not there and is saved is not read by another account. -/
def Spec.DraftPrivate : Prop :=
  ∀ (db : DB) (c : Codec) (a b : Account) (fs : FS) (perm : Path → Perm) (u d x : Bytes) (ns ns' : List Nat), x ≠ [] → b.uid ≠ 0 → b.uid ≠ a.uid →
    (∀ p, getUserDraftPath db.home u d = .ok p → fs.get (resolve db.cwd p) = none) →
    (Job.playAs a db.cwd perm ns fs (Job.start db c (.writeDraft u d x))).2.2 = .done (.ok .done) →
    (Job.playAs b db.cwd (Job.playAs a db.cwd perm ns fs (Job.start db c (.writeDraft u d x))).2.1 ns'
      (Job.playAs a db.cwd perm ns fs (Job.start db c (.writeDraft u d x))).1 (Job.start db c (.readDraft u d))).2.2 ≠ .done (.ok (.bytes x))

theorem barredFrom_same (a : Account) {fs fs' : FS} {perm perm' : Path → Perm} (hd : ∀ q, fs.get q = some .dir ↔ fs'.get q = some .dir)
    (hp : ∀ q, fs.get q = some .dir → perm' q = perm q) (cs : List Bytes) : ∀ cur, Job.barredFrom a fs' perm' cur cs = Job.barredFrom a fs perm cur cs := by
  induction cs with
  | nil => exact fun _ => rfl
  | cons c cs ih =>
    intro cur
    unfold Job.barredFrom
    by_cases h : fs.get cur = some .dir
    · rw [h, (hd cur).mp h]
      simp only [ih, hp cur h]
    · have h' := fun e => h ((hd cur).mpr e)
      split
      · next e => exact absurd e h'
      · rfl

/-- Who gets to a file depends only on the directories. -/
theorem barred_same (a : Account) (cwd : Path) {fs fs' : FS} {perm perm' : Path → Perm} (hd : ∀ q, fs.get q = some .dir ↔ fs'.get q = some .dir)
    (hp : ∀ q, fs.get q = some .dir → perm' q = perm q) (p : Bytes) : Job.barred a cwd fs' perm' p = Job.barred a cwd fs perm p := by
  unfold Job.barred
  rw [barredFrom_same a hd hp]

/-- What saving a new draft leaves. -/
theorem write_new_draft {db : DB} (c : Codec) {a : Account} {fs : FS} {perm : Path → Perm} {u d p : Bytes} (x : Bytes) {l : Path}
    (hp : getUserDraftPath db.home u d = .ok p) (hl : fs.lookup db.cwd p = .ok l) (hn : fs.get l = none) (hw : (perm l.dropLast).mayWrite a = true)
    (hs : Job.barred a db.cwd fs perm p = false) (n m : Nat) :
    ∃ fs' perm', Job.playAs a db.cwd perm [n, m] fs (Job.start db c (.writeDraft u d x)) = (fs', perm', .done (.ok .done)) ∧
      (∀ b, Job.barred b db.cwd fs' perm' p = Job.barred b db.cwd fs perm p) ∧ fs'.lookup db.cwd p = .ok l ∧ fs'.get l = some (.file x) ∧ perm' l = .made a (perm l.dropLast) 0o644 := by
  have ho : fs.openCreate db.cwd p = .ok (l, []) := by simp [FS.openCreate, hl, hn]
  have hroot : l ≠ [] := by rintro rfl; simp [FS.get] at hn
  have hg : (fs.set l (.file [])).get l = some (.file []) := by rw [FS.get_set hroot, if_pos rfl]
  have hnd : fs.get l ≠ some .dir := by rw [hn]; simp
  refine ⟨(fs.set l (.file [])).set l (.file x), Job.permAfter a (fs.set l (.file [])) ((fs.set l (.file [])).set l (.file x))
    (Job.permAfter a fs (fs.set l (.file [])) perm (.openTrunc p (Job.orStop fun l => .put l x (.done (.ok .done))))) (.put l x (.done (.ok .done))),
    ?_, fun b => ?_, ?_, ?_, ?_⟩
  rotate_left
  · refine barred_same b db.cwd (fun q => ?_) (fun q hq => ?_) p
    · rw [FS.get_set hroot, FS.get_set hroot]
      by_cases e : q = l
      · rw [if_pos e, e]; exact ⟨fun h => absurd h hnd, fun h => nomatch h⟩
      · rw [if_neg e, if_neg e]
    · have hql : q ≠ l := fun e => hnd (e ▸ hq)
      have h1 : (fs.set l (.file [])).get q = some .dir := by rw [FS.get_set hroot, if_neg hql]; exact hq
      unfold Job.permAfter
      rw [if_neg (by rw [h1]; simp), if_neg (by rw [hq]; simp)]
  rotate_right
  · have e0 : Job.start db c (.writeDraft u d x) = .openTrunc p (Job.orStop fun l => .put l x (.done (.ok .done))) := by
      simp only [Job.start, hp]
      rfl
    have d1 : Job.denied a db.cwd fs perm (.openTrunc p (Job.orStop fun l => .put l x (.done (.ok .done)))) = none := by
      rw [denied_there rfl hs]
      simp [Job.deniedThere, ho, hn, Job.denyUnless, hw]
    have s1 : Job.stepUnder db.cwd fs n none (.openTrunc p (Job.orStop fun l => .put l x (.done (.ok .done)))) =
        (fs.set l (.file []), .put l x (.done (.ok .done))) := by
      simp only [Job.stepUnder, Job.step, ho]
      rfl
    have s2 : Job.stepUnder db.cwd (fs.set l (.file [])) m none (.put l x (.done (.ok .done))) =
        ((fs.set l (.file [])).set l (.file x), .done (.ok .done)) := by
      simp only [Job.stepUnder, Job.step, hg, show writeAt [] 0 x = x by simp [writeAt]]
    have d2 : ∀ pm, Job.denied a db.cwd (fs.set l (.file [])) pm (.put l x (.done (.ok .done))) = none := fun _ => rfl
    simp only [Job.playAs, e0, d1, s1, d2, s2]
  · exact FS.lookup_mono (FS.set_file_dirs (by rw [hg]; simp)) (FS.lookup_mono (FS.set_file_dirs hnd) hl)
  · rw [FS.get_set hroot, if_pos rfl]
  · simp only [Job.permAfter, hn, hg]
    simp [Job.askedMode]

/-- The first two system calls of reading a draft that is there. -/
theorem read_draft_start {db : DB} (c : Codec) {fs : FS} {u d p x : Bytes} {l : Path} (hp : getUserDraftPath db.home u d = .ok p)
    (hl : fs.lookup db.cwd p = .ok l) (hg : fs.get l = some (.file x)) (b : Account) (perm : Path → Perm) (hb : Job.barred b db.cwd fs perm p = false) (n m : Nat) (ns : List Nat) :
    (Job.playAs b db.cwd perm (n :: m :: ns) fs (Job.start db c (.readDraft u d))).2.2 =
      if (perm l).mayRead b = true then (Job.play db.cwd (n :: m :: ns) fs (Job.start db c (.readDraft u d))).2
      else .done (.err "permission denied") := by
  have hs : fs.statOk db.cwd p = true := by simp [FS.statOk, hl, hg]
  have ho : Job.opened fs db.cwd p false = .ok l := by simp [Job.opened, hl, hg]
  have hpa : ∀ j, Job.permAfter b fs fs perm j = perm := by
    intro j
    funext q
    unfold Job.permAfter
    rw [if_neg]
    rintro ⟨h1, h2⟩
    cases hq : fs.get q <;> rw [hq] at h1 h2 <;> simp at h1 h2
  have hz : ∀ (z : Option String), (if Job.barred b db.cwd fs perm p = true then some "permission denied" else z) = z := fun z => by rw [hb]; rfl
  simp only [Job.start, hp, Job.orStop, Job.playAs, Job.play, Job.denied, Job.named, hz, Job.deniedThere, Job.stepUnder, Job.step, hs, Job.readWhole, hpa, ho]
  by_cases hr : (perm l).mayRead b = true
  · rw [if_pos hr, hr]
    exact quiet_playAs b ns fun r => by cases r <;> trivial
  · rw [if_neg hr, Bool.eq_false_iff.mpr hr]
    exact (quiet_playAs b ns (j := .done (.err "permission denied")) trivial).trans (congrArg Prod.snd (play_done ..))

/-- **C148, who reads a new draft.** A draft that was not there is saved; another account reads it iff the mask of the one who saved it leaves
reading to the group, if it is in the group of the draft (that of the directory or that of the one who saved it), or to others, if it is not;
otherwise it gets an error. -/
theorem C148_readers (db : DB) (c : Codec) (a b : Account) (fs : FS) (perm : Path → Perm) (u d p x : Bytes) (l : Path)
    (hp : getUserDraftPath db.home u d = .ok p) (hl : fs.lookup db.cwd p = .ok l) (hn : fs.get l = none)
    (hw : (perm l.dropLast).mayWrite a = true) (ha : Job.barred a db.cwd fs perm p = false) (hs : Job.barred b db.cwd fs perm p = false) (h0 : b.uid ≠ 0) (hb : b.uid ≠ a.uid) (n m : Nat) :
    ∃ fs' perm', Job.playAs a db.cwd perm [n, m] fs (Job.start db c (.writeDraft u d x)) = (fs', perm', .done (.ok .done)) ∧
      ∃ k, ∀ ns : List Nat, k ≤ ns.length → (Job.playAs b db.cwd perm' ns fs' (Job.start db c (.readDraft u d))).2.2 =
        .done (if a.umask &&& (if b.isIn (Perm.made a (perm l.dropLast) 0o644).group = true then 0o040 else 0o004) =
          (if b.isIn (Perm.made a (perm l.dropLast) 0o644).group = true then 0o040 else 0o004) then .err "permission denied" else .ok (.bytes x)) := by
  obtain ⟨fs', perm', h1, hsame, h2, h3, h4⟩ := write_new_draft c x hp hl hn hw ha n m
  refine ⟨fs', perm', h1, ?_⟩
  have he : ((Call.readDraft u d).exec db c fs').2 = .ok (.bytes x) := by
    simp [Call.exec, reads, DB.getUserDraft, hp, FS.statOk, h2, h3, FS.readFile]
  obtain ⟨k, hk⟩ := C120_alone db c fs' (.readDraft u d) (by rw [he]; simp)
  refine ⟨k + 2, fun ns hns => ?_⟩
  match ns, hns with
  | n :: m :: ns, hns =>
    rw [read_draft_start c hp h2 h3 b perm' (by rw [hsame b]; exact hs)]
    have hf : Foreign (perm' l) b := ⟨h0, by rw [h4]; exact hb⟩
    have hr := foreign_read hf
    rw [h4] at hr
    rw [h4]
    by_cases hm : (Perm.made a (perm l.dropLast) 0o644).mode &&& (if b.isIn (Perm.made a (perm l.dropLast) 0o644).group = true then 0o040 else 0o004) = 0
    · rw [if_neg fun e => hr.mp e hm, if_pos ((made_private a _ _).mp hm)]
    · rw [if_pos (hr.mpr hm), if_neg fun e => hm ((made_private a _ _).mpr e)]
      obtain ⟨fs'', h5, -⟩ := hk (n :: m :: ns) (by simp at hns ⊢; omega)
      rw [h5, he]

/-- **C148, a home nobody else may search.** Whatever is there and however it is called: an account that may not search a directory on the way to a draft
is told that the draft is empty, without an error, and cannot save or delete one. -/
theorem C148_barred (db : DB) (c : Codec) (b : Account) (fs : FS) (perm : Path → Perm) (u d p x : Bytes) (hp : getUserDraftPath db.home u d = .ok p)
    (hs : Job.barred b db.cwd fs perm p = true) (n : Nat) (ns : List Nat) :
    Job.playAs b db.cwd perm (n :: ns) fs (Job.start db c (.readDraft u d)) = (fs, perm, .done (.ok (.bytes []))) ∧
    Job.playAs b db.cwd perm (n :: ns) fs (Job.start db c (.writeDraft u d x)) = (fs, perm, .done (.err "permission denied")) ∧
    Job.playAs b db.cwd perm (n :: ns) fs (Job.start db c (.deleteDraft u d)) = (fs, perm, .done (.err "permission denied")) := by
  have hpa : ∀ j, Job.permAfter b fs fs perm j = perm := by
    intro j
    funext q
    unfold Job.permAfter
    rw [if_neg]
    rintro ⟨h1, h2⟩
    cases hq : fs.get q <;> rw [hq] at h1 h2 <;> simp at h1 h2
  have hdone : ∀ (r : Res Answer) (ns : List Nat), Job.playAs b db.cwd perm ns fs (.done r) = (fs, perm, .done r) := by
    intro r ns
    induction ns with
    | nil => rfl
    | cons n ns ih =>
      have hd : Job.denied b db.cwd fs perm (.done r) = none := rfl
      simp only [Job.playAs, hd, Job.stepUnder, Job.step, hpa, ih]
  have hz : ∀ (z : Option String), (if Job.barred b db.cwd fs perm p = true then some "permission denied" else z) = some "permission denied" :=
    fun z => if_pos hs
  refine ⟨?_, ?_, ?_⟩ <;>
    simp only [Job.start, hp, Job.orStop, Job.playAs, Job.denied, Job.named, hz, Job.stepUnder, hpa, hdone]

theorem made_hidden (a : Account) (dir : Perm) : (Perm.made a dir 0o644).mode &&& 0o400 = 0 ↔ a.umask &&& 0o400 = 0o400 := by
  rw [made_and, show (0o644 : UInt32) &&& 0o400 = 0o400 from by decide,
    and_not_zero (i := 8) (by decide) (by decide)]

/-- **C148, whoever saved it.** A draft that was not there is saved; the account that saved it reads it back iff its mask leaves reading to the
owner: a mask that takes that away hides the draft from the one who wrote it, although saving it succeeds. -/
theorem C148_owner (db : DB) (c : Codec) (a b : Account) (fs : FS) (perm : Path → Perm) (u d p x : Bytes) (l : Path)
    (hp : getUserDraftPath db.home u d = .ok p) (hl : fs.lookup db.cwd p = .ok l) (hn : fs.get l = none)
    (hw : (perm l.dropLast).mayWrite a = true) (ha : Job.barred a db.cwd fs perm p = false) (hs : Job.barred b db.cwd fs perm p = false) (h0 : b.uid ≠ 0) (hb : b.uid = a.uid) (n m : Nat) :
    ∃ fs' perm', Job.playAs a db.cwd perm [n, m] fs (Job.start db c (.writeDraft u d x)) = (fs', perm', .done (.ok .done)) ∧
      ∃ k, ∀ ns : List Nat, k ≤ ns.length → (Job.playAs b db.cwd perm' ns fs' (Job.start db c (.readDraft u d))).2.2 =
        .done (if a.umask &&& 0o400 = 0o400 then .err "permission denied" else .ok (.bytes x)) := by
  obtain ⟨fs', perm', h1, hsame, h2, h3, h4⟩ := write_new_draft c x hp hl hn hw ha n m
  refine ⟨fs', perm', h1, ?_⟩
  have he : ((Call.readDraft u d).exec db c fs').2 = .ok (.bytes x) := by
    simp [Call.exec, reads, DB.getUserDraft, hp, FS.statOk, h2, h3, FS.readFile]
  obtain ⟨k, hk⟩ := C120_alone db c fs' (.readDraft u d) (by rw [he]; simp)
  refine ⟨k + 2, fun ns hns => ?_⟩
  have hr : (perm' l).mayRead b = true ↔ ¬ a.umask &&& 0o400 = 0o400 := by
    rw [h4, ← made_hidden a (perm l.dropLast)]
    unfold Perm.mayRead Perm.allows Perm.bitFor
    rw [if_pos (show b.uid = (Perm.made a (perm l.dropLast) 0o644).owner from hb)]
    simp [h0]
  match ns, hns with
  | n :: m :: ns, hns =>
    rw [read_draft_start c hp h2 h3 b perm' (by rw [hsame b]; exact hs)]
    by_cases hm : a.umask &&& 0o400 = 0o400
    · rw [if_pos hm, if_neg]
      exact fun h => hr.mp h hm
    · rw [if_neg hm, if_pos (hr.mpr hm)]
      obtain ⟨fs'', h5, -⟩ := hk (n :: m :: ns) (by simp at hns ⊢; omega)
      rw [h5, he]

/-! ## What is there keeps its mode -/

/-- The job does not remove what is at `l`. -/
def Spares (cwd : Path) (l : Path) : Job → Prop
  | .done _ => True
  | .stat _ k => ∀ b, Spares cwd l (k b)
  | .openRead _ k => ∀ r : Res Path, Spares cwd l (k r)
  | .openWrite _ k => ∀ r : Res Path, Spares cwd l (k r)
  | .openMake _ k => ∀ r : Res Path, Spares cwd l (k r)
  | .openTrunc _ k => ∀ r : Res Path, Spares cwd l (k r)
  | .openExcl _ k => ∀ b, Spares cwd l (k b)
  | .read _ _ _ _ k => ∀ r, Spares cwd l (k r)
  | .append _ _ k => Spares cwd l k
  | .put _ _ k => Spares cwd l k
  | .unlink p k => resolve cwd p ≠ l ∧ ∀ r, Spares cwd l (k r)

theorem spares_orStop {cwd l : Path} {α : Type} {k : α → Job} {r : Res α} (h : ∀ a, r = .ok a → Spares cwd l (k a)) : Spares cwd l (Job.orStop k r) := by
  cases r with
  | ok a => exact h a rfl
  | err e => trivial
  | panic => trivial
  | diverge => trivial

theorem spares_readList {cwd l : Path} {α : Type} {p : Bytes} {size : Nat} {parse : Bytes → Res α} {k : List α → Job} (hk : ∀ x, Spares cwd l (k x)) :
    Spares cwd l (Job.readList p size parse k) :=
  fun _ => spares_orStop fun _ _ _ => spares_orStop fun _ _ => spares_orStop fun _ _ => hk _

theorem spares_readWhole {cwd l : Path} {p : Bytes} {k : Bytes → Job} (hk : ∀ x, Spares cwd l (k x)) : Spares cwd l (Job.readWhole p k) :=
  fun _ => spares_orStop fun _ _ _ => spares_orStop fun _ _ => hk _

theorem spares_tryNames {db : DB} {cwd l : Path} {b o d t : Bytes} {draw : Nat → Int × Fin 4096} :
    ∀ fuel k, Spares cwd l (Job.tryNames db b o d t draw fuel k)
  | 0, _ => trivial
  | fuel + 1, k => by
    unfold Job.tryNames
    refine spares_orStop fun p hp r => ?_
    cases r with
    | true => trivial
    | false => exact spares_tryNames fuel (k + 1)

/-- The call does not delete a draft at `l`. -/
def Spec.Keeps (db : DB) (l : Path) : Call → Prop
  | .deleteDraft u d => ∀ p, getUserDraftPath db.home u d = .ok p → resolve db.cwd p ≠ l
  | _ => True

theorem spares_start (db : DB) (c : Codec) (l : Path) {op : Call} (h : Keeps db l op) : Spares db.cwd l (Job.start db c op) := by
  cases op with
  | readUsers => unfold Job.start; exact spares_orStop fun p hp => spares_readList fun _ => trivial
  | readFavourites u =>
    refine spares_orStop fun p hp r => ?_
    cases r with
    | false => trivial
    | true =>
      exact spares_readWhole fun _ => spares_orStop fun _ _ => spares_orStop fun q hq => spares_readList fun _ => spares_orStop fun _ _ => trivial
  | readBoards => unfold Job.start; exact spares_orStop fun p hp => spares_readList fun _ => trivial
  | listArticles b =>
    refine spares_orStop fun p hp r => ?_
    cases r with
    | err e => trivial
    | ok l => exact fun _ => spares_orStop fun _ _ => spares_orStop fun _ _ => trivial
    | panic => trivial
    | diverge => trivial
  | listTreasure b ds => exact spares_orStop fun p hp => spares_readList fun _ => trivial
  | readArticle b f => exact spares_orStop fun p hp => spares_readWhole fun _ => trivial
  | readTreasure b ds f => exact spares_orStop fun p hp => spares_readWhole fun _ => trivial
  | readDraft u d =>
    refine spares_orStop fun p hp r => ?_
    cases r with
    | false => trivial
    | true => exact spares_readWhole fun _ => trivial
  | addBoard r => unfold Job.start; exact spares_orStop fun p hp r => spares_orStop fun _ _ => trivial
  | createArticle b o d t draw fuel => exact spares_tryNames fuel 0
  | addRecord b r => exact spares_orStop fun p hp r => spares_orStop fun _ _ => trivial
  | writeArticle b f x => exact spares_orStop fun p hp r => spares_orStop fun _ _ => trivial
  | appendArticle b f x => exact spares_orStop fun p hp r => spares_orStop fun _ _ => trivial
  | deleteDraft u d => exact spares_orStop fun p hp => ⟨h p hp, fun _ => spares_orStop fun _ _ => trivial⟩
  | writeDraft u d x => exact spares_orStop fun p hp r => spares_orStop fun _ _ => trivial

theorem set_isSome {fs : FS} {l : Path} (h : (fs.get l).isSome = true) (l' : Path) (n : Node) : ((fs.set l' n).get l).isSome = true := by
  by_cases e : l' = l
  · subst e
    by_cases hr : l' = []
    · subst hr; rfl
    · rw [FS.get_set hr, if_pos rfl]; rfl
  · rw [get_set_ne e]; exact h

theorem spares_step {cwd l : Path} {j : Job} (hj : Spares cwd l j) {fs : FS} (hf : (fs.get l).isSome = true) (n : Nat) (e : Option String) :
    ((j.stepUnder cwd fs n e).1.get l).isSome = true ∧ Spares cwd l (j.stepUnder cwd fs n e).2 := by
  cases e with
  | some e =>
    cases j with
    | done r => exact ⟨hf, trivial⟩
    | stat p k => exact ⟨hf, hj _⟩
    | openRead p k => exact ⟨hf, hj _⟩
    | openWrite p k => exact ⟨hf, hj _⟩
    | openMake p k => exact ⟨hf, hj _⟩
    | openTrunc p k => exact ⟨hf, hj _⟩
    | openExcl p k => exact ⟨hf, hj _⟩
    | read l' size got pos k =>
      simp only [Job.stepUnder]
      split
      · exact ⟨hf, hj _⟩
      · exact ⟨hf, hj⟩
    | append l' bs k => exact ⟨hf, trivial⟩
    | put l' bs k => exact ⟨hf, trivial⟩
    | unlink p k => exact ⟨hf, hj.2 _⟩
  | none =>
    simp only [Job.stepUnder]
    cases j with
    | done r => exact ⟨hf, trivial⟩
    | stat p k => exact ⟨hf, hj _⟩
    | openRead p k => exact ⟨hf, hj _⟩
    | openWrite p k => exact ⟨hf, hj _⟩
    | openMake p k =>
      simp only [Job.step]
      split
      · refine ⟨?_, hj _⟩
        simp only
        split
        · exact set_isSome hf _ _
        · exact hf
      all_goals exact ⟨hf, hj _⟩
    | openTrunc p k =>
      simp only [Job.step]
      split
      · exact ⟨set_isSome hf _ _, hj _⟩
      all_goals exact ⟨hf, hj _⟩
    | openExcl p k =>
      simp only [Job.step]
      split
      · next fs' ho =>
        refine ⟨?_, hj _⟩
        unfold FS.createExcl at ho
        obtain ⟨l', h1, h2⟩ := Res.bind_eq_ok.mp ho
        split at h2 <;> cases h2
        exact set_isSome hf _ _
      · exact ⟨hf, hj _⟩
    | read l' size got pos k =>
      simp only [Job.step]
      split
      · split
        · exact ⟨hf, hj⟩
        · exact ⟨hf, hj _⟩
      · split
        · exact ⟨hf, hj _⟩
        · exact ⟨hf, hj⟩
      · exact ⟨hf, hj _⟩
    | append l' bs k =>
      simp only [Job.step]
      split
      · exact ⟨set_isSome hf _ _, hj⟩
      · exact ⟨hf, hj⟩
    | put l' bs k =>
      simp only [Job.step]
      split
      · exact ⟨set_isSome hf _ _, hj⟩
      · exact ⟨hf, hj⟩
    | unlink p k =>
      simp only [Job.step]
      split
      · next fs' ho =>
        refine ⟨?_, hj.2 _⟩
        unfold FS.remove at ho
        obtain ⟨l', h1, h2⟩ := Res.bind_eq_ok.mp ho
        have hn : l' ≠ l := FS.lookup_eq h1 ▸ hj.1
        split at h2
        · cases h2
        · cases h2; rw [get_del_ne hn]; exact hf
        · split at h2
          · cases h2
          · split at h2
            · cases h2
            · cases h2; rw [get_del_ne hn]; exact hf
      all_goals exact ⟨hf, hj.2 _⟩

/-- **C148, saving again.** What is there keeps its owner and its mode, and stays there, through any calls of any clients of which none deletes it: a
draft that others can read stays one that they can read when it is saved again, whatever the mask. -/
theorem C148_existing (db : DB) (c : Codec) (who : Nat → Account) (perm : Path → Perm) (fs : FS) (todo : Nat → List Call) (l : Path)
    (hf : (fs.get l).isSome = true) (h : ∀ p, ∀ op ∈ todo p, Keeps db l op) (sched : List (Nat × Nat)) :
    (((fresh fs todo).runAs db c who perm sched).1.fs.get l).isSome = true ∧ ((fresh fs todo).runAs db c who perm sched).2.1 l = perm l := by
  have key : ∀ (sched : List (Nat × Nat)) (s : Site) (pm : Path → Perm), (s.fs.get l).isSome = true → pm l = perm l →
      (∀ p, (∀ j, (s.clients p).now = some j → Spares db.cwd l j) ∧ ∀ op ∈ (s.clients p).todo, Keeps db l op) →
      ((s.runAs db c who pm sched).1.fs.get l).isSome = true ∧ (s.runAs db c who pm sched).2.1 l = perm l := by
    intro sched
    induction sched with
    | nil => exact fun s pm h1 h2 _ => ⟨h1, h2⟩
    | cons x sched ih =>
      obtain ⟨p, n⟩ := x
      intro s pm h1 h2 h3
      refine ih (s.stepAs db c who pm p n).1 (s.stepAs db c who pm p n).2.1 ?_ ?_ ?_
      · rcases stepAs_cases db c who s pm p n with ⟨e1, e2⟩ | ⟨j, hj, e1, e2⟩
        · rw [e1]; exact h1
        · rw [e1]; exact (spares_step ((h3 p).1 j hj) h1 n _).1
      · rcases stepAs_cases db c who s pm p n with ⟨e1, e2⟩ | ⟨j, hj, e1, e2⟩
        · rw [e2]; exact h2
        · rw [e2]
          unfold Job.permAfter
          rw [if_neg (fun x => by cases hq : s.fs.get l <;> simp [hq] at h1 x)]; exact h2
      · intro q
        by_cases e : q = p
        · subst e
          obtain ⟨ha, hb⟩ := h3 q
          have step : ∀ r, (∀ j, ((s.stepUnder db c q n r).1.clients q).now = some j → Spares db.cwd l j) ∧
              ∀ op ∈ ((s.stepUnder db c q n r).1.clients q).todo, Keeps db l op := by
            intro r
            simp only [Site.stepUnder]
            split
            · exact ⟨ha, hb⟩
            · next hc =>
              rw [hc] at hb
              simp only [Site.setClient, if_true]
              exact ⟨fun j e => by cases e; exact spares_start db c l (hb _ (by simp)), fun op hop => hb op (by simp [hop])⟩
            · next hc =>
              rw [hc] at hb
              simp only [Site.setClient, if_true]
              exact ⟨fun j e => (by cases e), hb⟩
            · next hc =>
              rw [hc] at hb
              simp only [Site.setClient, if_true]
              exact ⟨fun j e => by cases e; exact (spares_step (ha _ (by rw [hc])) h1 n _).2, hb⟩
          unfold Site.stepAs
          split
          · exact step _
          · exact step _
        · have : (s.stepAs db c who pm p n).1.clients q = s.clients q := by
            unfold Site.stepAs
            split
            · simp only [Site.stepUnder]
              split <;> simp [Site.setClient, e]
            · simp only [Site.stepUnder]
              split <;> simp [Site.setClient, e]
          rw [this]
          exact h3 q
  exact key sched (fresh fs todo) perm hf rfl fun p => ⟨fun j e => (by cases e), h p⟩

/-! ## One account, and the account that may do everything -/

theorem stepUnder_none (db : DB) (c : Codec) (s : Site) (p n : Nat) : s.stepUnder db c p n none = s.step db c p n := by
  unfold Site.stepUnder Site.step
  rfl

/-- May do everything with it. -/
def Spec.Free (f : Perm) (a : Account) : Prop := f.mayRead a = true ∧ f.mayWrite a = true

theorem denied_there_free {a : Account} {cwd : Path} {fs : FS} {perm : Path → Perm} (h : ∀ l, Free (perm l) a) (j : Job) :
    j.deniedThere a cwd fs perm = none := by
  have hr := fun l => (h l).1
  have hw := fun l => (h l).2
  cases j with
  | openRead p k => simp only [Job.deniedThere]; split <;> simp [Job.denyUnless, hr]
  | openWrite p k => simp only [Job.deniedThere]; split <;> simp [Job.denyUnless, hw]
  | openMake p k => simp only [Job.deniedThere]; split <;> simp [Job.denyUnless, hw]
  | openTrunc p k => simp only [Job.deniedThere]; split <;> simp [Job.denyUnless, hw]
  | openExcl p k => simp only [Job.deniedThere]; split <;> simp [Job.denyUnless, hw]
  | unlink p k => simp only [Job.deniedThere]; split <;> simp [Job.denyUnless, hw]
  | _ => rfl

theorem barredFrom_free {a : Account} {fs : FS} {perm : Path → Perm} (h : ∀ l, fs.get l = some .dir → (perm l).maySearch a = true) (cs : List Bytes) :
    ∀ cur, Job.barredFrom a fs perm cur cs = false := by
  induction cs with
  | nil => exact fun _ => rfl
  | cons c cs ih =>
    intro cur
    unfold Job.barredFrom
    split
    · next e =>
      rw [ih, ih, h cur e]
      split <;> rfl
    · rfl

theorem denied_free {a : Account} {cwd : Path} {fs : FS} {perm : Path → Perm} (h : ∀ l, Free (perm l) a)
    (hs : ∀ l, fs.get l = some .dir → (perm l).maySearch a = true) (j : Job) : j.denied a cwd fs perm = none := by
  have hb : ∀ p, Job.barred a cwd fs perm p = false := fun p => by unfold Job.barred; rw [barredFrom_free hs, Bool.and_false]
  cases hn : j.named with
  | none => unfold Job.denied; rw [hn]
  | some p => rw [denied_there hn (hb p), denied_there_free h]

/-- The installation in which all clients run under the account to which everything belongs, or under the one that may do everything, with masks
that leave reading and writing to the owner; the owner may search the directories. -/
def Spec.OneAccount (who : Nat → Account) (fs : FS) (perm : Path → Perm) : Prop :=
  ∃ uid, ∀ p, (who p).uid = 0 ∨ (who p).uid = uid ∧ (∀ q, (who q).uid = uid ∧ (who q).umask &&& 0o600 = 0) ∧
    ∀ l, (perm l).owner = uid ∧ (perm l).mode &&& 0o600 = 0o600 ∧ (fs.get l = some .dir → (perm l).mode &&& 0o100 = 0o100)

theorem bit_of_mask {m b c : UInt32} (h : m &&& b = b) (hc : b &&& c = c) : m &&& c = c := by
  rw [← hc, ← UInt32.and_assoc, h]

theorem made_own {a : Account} (h : a.umask &&& 0o600 = 0) : (0o644 &&& ~~~ a.umask) &&& 0o600 = 0o600 := by
  have e : ~~~ a.umask &&& 0o600 = 0o600 := by
    rw [← UInt32.toBitVec_inj] at h ⊢
    have h' : a.umask.toBitVec &&& 0o600#32 = 0#32 := h
    show ~~~ a.umask.toBitVec &&& 0o600#32 = 0o600#32
    apply BitVec.eq_of_getLsbD_eq
    intro i hi
    have := congrArg (fun v => v.getLsbD i) h'
    simp only [BitVec.getLsbD_and, BitVec.getLsbD_not, hi, decide_true, Bool.true_and] at this ⊢
    cases hb : (0o600#32).getLsbD i
    · simp
    · rw [hb] at this
      simp at this
      simp [this]
  rw [UInt32.and_assoc, e]
  decide

theorem free_of_owner {f : Perm} {a : Account} (ho : f.owner = a.uid) (hm : f.mode &&& 0o600 = 0o600) : Free f a := by
  have h1 : f.mode &&& 0o400 = 0o400 := bit_of_mask hm (by decide)
  have h2 : f.mode &&& 0o200 = 0o200 := bit_of_mask hm (by decide)
  constructor
  · unfold Perm.mayRead Perm.allows Perm.bitFor
    rw [if_pos ho.symm, h1]
    simp
  · unfold Perm.mayWrite Perm.allows Perm.bitFor
    rw [if_pos ho.symm, h2]
    simp

theorem search_of_owner {f : Perm} {a : Account} (ho : f.owner = a.uid) (hm : f.mode &&& 0o100 = 0o100) : f.maySearch a = true := by
  unfold Perm.maySearch Perm.allows Perm.bitFor
  rw [if_pos ho.symm, hm]
  simp

theorem free_root {f : Perm} {a : Account} (h : a.uid = 0) : Free f a := by
  constructor <;> simp [Perm.mayRead, Perm.mayWrite, Perm.allows, h]

/-- **C147, the usual installation.** If all clients run under the account to which everything belongs (or are all the one that may do everything),
accounts make no difference: every run is one of the clients without accounts. -/
theorem C147_one_account (db : DB) (c : Codec) (who : Nat → Account) (s : Site) (perm : Path → Perm) (h : OneAccount who s.fs perm)
    (sched : List (Nat × Nat)) :
    (s.runAs db c who perm sched).1 = (s.run db c sched).1 ∧ (s.runAs db c who perm sched).2.2 = (s.run db c sched).2 := by
  obtain ⟨uid, h⟩ := h
  induction sched generalizing s perm with
  | nil => exact ⟨rfl, rfl⟩
  | cons x sched ih =>
    obtain ⟨p, n⟩ := x
    have hfree : ∀ l, Free (perm l) (who p) := by
      intro l
      rcases h p with h0 | ⟨h1, -, h3⟩
      · exact free_root h0
      · exact free_of_owner ((h3 l).1.trans h1.symm) (h3 l).2.1
    have hsearch : ∀ l, s.fs.get l = some .dir → (perm l).maySearch (who p) = true := by
      intro l hl
      rcases h p with h0 | ⟨h1, -, h3⟩
      · simp [Perm.maySearch, Perm.allows, h0]
      · exact search_of_owner ((h3 l).1.trans h1.symm) ((h3 l).2.2 hl)
    have hstep : (s.stepAs db c who perm p n).1 = (s.step db c p n).1 ∧ (s.stepAs db c who perm p n).2.2 = (s.step db c p n).2 := by
      unfold Site.stepAs
      split
      · rw [stepUnder_none]; exact ⟨rfl, rfl⟩
      · rw [denied_free hfree hsearch, stepUnder_none]; exact ⟨rfl, rfl⟩
    have hnext : ∀ q, (who q).uid = 0 ∨ (who q).uid = uid ∧ (∀ q, (who q).uid = uid ∧ (who q).umask &&& 0o600 = 0) ∧
        ∀ l, ((s.stepAs db c who perm p n).2.1 l).owner = uid ∧ ((s.stepAs db c who perm p n).2.1 l).mode &&& 0o600 = 0o600 ∧
          ((s.stepAs db c who perm p n).1.fs.get l = some .dir → ((s.stepAs db c who perm p n).2.1 l).mode &&& 0o100 = 0o100) := by
      intro q
      refine (h q).imp_right fun ⟨h1, h2, h3⟩ => ⟨h1, h2, fun l => ?_⟩
      have hdirs : (s.stepAs db c who perm p n).1.fs.get l = some .dir → s.fs.get l = some .dir := by
        rcases stepAs_cases db c who s perm p n with ⟨e1, e2⟩ | ⟨j, hj, e1, e2⟩
        · rw [e1]; exact id
        · rw [e1, denied_free hfree hsearch]; exact step_dirs db.cwd s.fs n j l
      refine (fun z : _ ∧ _ ∧ (s.fs.get l = some .dir → _) => ⟨z.1, z.2.1, fun hl => z.2.2 (hdirs hl)⟩) ?_
      rcases stepAs_cases db c who s perm p n with ⟨e1, e2⟩ | ⟨j, hj, e1, e2⟩
      · rw [e2]; exact h3 l
      · rw [e2]
        unfold Job.permAfter
        by_cases hc : (s.fs.get l).isNone = true ∧ ((s.stepAs db c who perm p n).1.fs.get l).isSome = true
        · rw [if_pos hc]
          have hm := step_makes (Option.isNone_iff_eq_none.mp hc.1) (by rw [← e1]; exact hc.2)
          rw [hm]
          exact ⟨(h2 p).1, made_own (h2 p).2, fun hl => by rw [hl] at hc; cases hc.1⟩
        · rw [if_neg hc]; exact h3 l
    obtain ⟨i1, i2⟩ := ih (s.stepAs db c who perm p n).1 (s.stepAs db c who perm p n).2.1 hnext
    simp only [Site.runAs, Site.run]
    rw [i1, i2, hstep.1, hstep.2]
    exact ⟨rfl, rfl⟩

/-! ## Nothing is made where one may not -/

/-- A client that may not write to the directory does not make a file in it. -/
theorem closed_step {cwd l : Path} {j : Job} (hj : Barred l j) {fs : FS} {perm : Path → Perm} {a : Account} (n : Nat)
    (hf : fs.get l = none) (h2 : (perm l.dropLast).mayWrite a = false) :
    (j.stepUnder cwd fs n (j.denied a cwd fs perm)).1.get l = none ∧
    Barred l (j.stepUnder cwd fs n (j.denied a cwd fs perm)).2 := by
  have ne : ∀ {l' : Path} {x : Node}, fs.get l' = some x → l' ≠ l := fun h e => by rw [e, hf] at h; cases h
  cases j with
  | done r => exact ⟨hf, trivial⟩
  | stat p k =>
    cases Job.denied a cwd fs perm (.stat p k) with
    | none => exact ⟨hf, hj _⟩
    | some e => exact ⟨hf, hj _⟩
  | openRead p k =>
    cases Job.denied a cwd fs perm (.openRead p k) with
    | none => exact ⟨hf, hj _⟩
    | some e => exact ⟨hf, hj _⟩
  | openWrite p k =>
    cases he : Job.denied a cwd fs perm (.openWrite p k) with
    | some e => exact ⟨hf, hj _ nofun⟩
    | none =>
      have he := (denied_none rfl he).1
      refine ⟨hf, hj _ fun e => ?_⟩
      unfold Job.opened at e
      obtain ⟨l', h3, h4⟩ := Res.bind_eq_ok.mp e
      split at h4
      · cases h4
      · next hg =>
        split at h4 <;> cases h4
        exact ne hg rfl
      · next hg => cases h4; exact ne hg rfl
  | openMake p k =>
    cases he : Job.denied a cwd fs perm (.openMake p k) with
    | some e => exact ⟨hf, hj _ nofun⟩
    | none =>
      have he := (denied_none rfl he).1
      simp only [Job.stepUnder, Job.step]
      simp only [Job.deniedThere] at he
      split
      · next l' d' ho =>
        have hne : l' ≠ l := by
          rintro rfl
          rw [ho] at he
          simp [hf, Job.denyUnless, h2] at he
        refine ⟨?_, hj _ fun e => hne (by cases e; rfl)⟩
        simp only
        split
        · rw [get_set_ne hne]; exact hf
        · exact hf
      · exact ⟨hf, hj _ nofun⟩
      · exact ⟨hf, hj _ nofun⟩
      · exact ⟨hf, hj _ nofun⟩
  | openTrunc p k =>
    cases he : Job.denied a cwd fs perm (.openTrunc p k) with
    | some e => exact ⟨hf, hj _ nofun⟩
    | none =>
      have he := (denied_none rfl he).1
      simp only [Job.stepUnder, Job.step]
      simp only [Job.deniedThere] at he
      split
      · next l' d' ho =>
        have hne : l' ≠ l := by
          rintro rfl
          rw [ho] at he
          simp [hf, Job.denyUnless, h2] at he
        exact ⟨by rw [get_set_ne hne]; exact hf, hj _ fun e => hne (by cases e; rfl)⟩
      · exact ⟨hf, hj _ nofun⟩
      · exact ⟨hf, hj _ nofun⟩
      · exact ⟨hf, hj _ nofun⟩
  | openExcl p k =>
    cases he : Job.denied a cwd fs perm (.openExcl p k) with
    | some e => exact ⟨hf, hj _⟩
    | none =>
      have he := (denied_none rfl he).1
      simp only [Job.stepUnder, Job.step]
      simp only [Job.deniedThere] at he
      split
      · next fs' ho =>
        refine ⟨?_, hj _⟩
        rw [ho] at he
        unfold FS.createExcl at ho
        obtain ⟨l', h3, h4⟩ := Res.bind_eq_ok.mp ho
        have hne : l' ≠ l := by
          rintro rfl
          rw [← FS.lookup_eq h3] at he
          simp [Job.denyUnless, h2] at he
        split at h4 <;> cases h4
        rw [get_set_ne hne]; exact hf
      · exact ⟨hf, hj _⟩
  | read l' size got pos k =>
    simp only [Job.denied, Job.named, Job.stepUnder, Job.step]
    split
    · split
      · exact ⟨hf, hj⟩
      · exact ⟨hf, hj _⟩
    · split
      · exact ⟨hf, hj _⟩
      · exact ⟨hf, hj⟩
    · exact ⟨hf, hj _⟩
  | append l' bs k =>
    simp only [Job.denied, Job.named, Job.stepUnder, Job.step]
    split
    · exact ⟨by rw [get_set_ne hj.1]; exact hf, hj.2⟩
    · exact ⟨hf, hj.2⟩
  | put l' bs k =>
    simp only [Job.denied, Job.named, Job.stepUnder, Job.step]
    split
    · exact ⟨by rw [get_set_ne hj.1]; exact hf, hj.2⟩
    · exact ⟨hf, hj.2⟩
  | unlink p k =>
    cases he : Job.denied a cwd fs perm (.unlink p k) with
    | some e => exact ⟨hf, hj _⟩
    | none =>
      have he := (denied_none rfl he).1
      simp only [Job.stepUnder, Job.step]
      split
      · next fs' ho =>
        refine ⟨?_, hj _⟩
        unfold FS.remove at ho
        obtain ⟨l', h3, h4⟩ := Res.bind_eq_ok.mp ho
        split at h4
        · cases h4
        · next hg => cases h4; rw [get_del_ne (ne hg)]; exact hf
        · next hg =>
          split at h4
          · cases h4
          · split at h4
            · cases h4
            · cases h4; rw [get_del_ne (ne hg)]; exact hf
      · exact ⟨hf, hj _⟩
      · exact ⟨hf, hj _⟩
      · exact ⟨hf, hj _⟩

/-- **C147, nothing is made where one may not.** Clients that may not write to a directory, and do not try to delete it as a draft, make no file in
it. -/
theorem C147_none_made (db : DB) (c : Codec) (who : Nat → Account) (perm : Path → Perm) (fs : FS) (todo : Nat → List Call) (l : Path)
    (hl : fs.get l = none) (hd : (fs.get l.dropLast).isSome = true) (h : ∀ p, ∀ op ∈ todo p, Keeps db l.dropLast op)
    (hw : ∀ p, (perm l.dropLast).mayWrite (who p) = false) (sched : List (Nat × Nat)) :
    ((fresh fs todo).runAs db c who perm sched).1.fs.get l = none := by
  have key : ∀ (sched : List (Nat × Nat)) (s : Site) (pm : Path → Perm), s.fs.get l = none → (s.fs.get l.dropLast).isSome = true →
      pm l.dropLast = perm l.dropLast →
      (∀ p, (∀ j, (s.clients p).now = some j → Spares db.cwd l.dropLast j ∧ Barred l j) ∧ ∀ op ∈ (s.clients p).todo, Keeps db l.dropLast op) →
      (s.runAs db c who pm sched).1.fs.get l = none := by
    intro sched
    induction sched with
    | nil => exact fun s pm h1 _ _ _ => h1
    | cons x sched ih =>
      obtain ⟨p, n⟩ := x
      intro s pm h1 hx h2 h3
      have hno : (pm l.dropLast).mayWrite (who p) = false := by rw [h2]; exact hw p
      refine ih (s.stepAs db c who pm p n).1 (s.stepAs db c who pm p n).2.1 ?_ ?_ ?_ ?_
      · rcases stepAs_cases db c who s pm p n with ⟨e1, e2⟩ | ⟨j, hj, e1, e2⟩
        · rw [e1]; exact h1
        · rw [e1]; exact (closed_step ((h3 p).1 j hj).2 n h1 hno).1
      · rcases stepAs_cases db c who s pm p n with ⟨e1, e2⟩ | ⟨j, hj, e1, e2⟩
        · rw [e1]; exact hx
        · rw [e1]; exact (spares_step ((h3 p).1 j hj).1 hx n _).1
      · rcases stepAs_cases db c who s pm p n with ⟨e1, e2⟩ | ⟨j, hj, e1, e2⟩
        · rw [e2]; exact h2
        · rw [e2]
          unfold Job.permAfter
          rw [if_neg (fun x => by cases hq : s.fs.get l.dropLast <;> simp [hq] at hx x)]; exact h2
      · intro q
        by_cases e : q = p
        · subst e
          obtain ⟨ha, hb⟩ := h3 q
          have step : ∀ r, (∀ j, (s.clients q).now = some j → r = j.denied (who q) db.cwd s.fs pm) →
              (∀ j, ((s.stepUnder db c q n r).1.clients q).now = some j → Spares db.cwd l.dropLast j ∧ Barred l j) ∧
              ∀ op ∈ ((s.stepUnder db c q n r).1.clients q).todo, Keeps db l.dropLast op := by
            intro r hr
            simp only [Site.stepUnder]
            split
            · exact ⟨ha, hb⟩
            · next hc =>
              rw [hc] at hb
              simp only [Site.setClient, if_true]
              exact ⟨fun j e => by cases e; exact ⟨spares_start db c _ (hb _ (by simp)), barred_start ..⟩, fun op hop => hb op (by simp [hop])⟩
            · next hc =>
              rw [hc] at hb
              simp only [Site.setClient, if_true]
              exact ⟨fun j e => (by cases e), hb⟩
            · next hc =>
              rw [hc] at hb
              simp only [Site.setClient, if_true]
              refine ⟨fun j e => ?_, hb⟩
              cases e
              have hnow := congrArg Client.now hc
              rw [hr _ hnow]
              exact ⟨(spares_step (ha _ hnow).1 hx n _).2, (closed_step (ha _ hnow).2 n h1 hno).2⟩
          unfold Site.stepAs
          split
          · next hn => exact step _ (fun j e => by rw [hn] at e; cases e)
          · next j hn => exact step _ (fun j' e => by rw [hn] at e; cases e; rfl)
        · have : (s.stepAs db c who pm p n).1.clients q = s.clients q := by
            unfold Site.stepAs
            split
            · simp only [Site.stepUnder]
              split <;> simp [Site.setClient, e]
            · simp only [Site.stepUnder]
              split <;> simp [Site.setClient, e]
          rw [this]
          exact h3 q
  exact key sched (fresh fs todo) perm hl hd rfl fun p => ⟨fun j e => (by cases e), h p⟩

/-! ## Examples -/

/-- The home directory of user `U`, and a list of boards. -/
def accountsFS : FS :=
  ⟨[([ascii "bbs"], .dir), ([ascii "bbs", ascii "home"], .dir), ([ascii "bbs", ascii "home", ascii "U"], .dir),
    ([ascii "bbs", ascii "home", ascii "U", ascii "U"], .dir), ([ascii "bbs", ascii ".BRD"], .file (ascii "boards"))]⟩

/-- Everything belongs to account 99 and only it may write. -/
def accountsPerm : Path → Perm := fun _ => ⟨99, 99, 0o755⟩

def draftPlace : Path := [ascii "bbs", ascii "home", ascii "U", ascii "U", ascii "buf.0"]

/-- **C148 is false of the code**: with the usual mask 022 a draft is made with mode 0644. -/
theorem C148_refuted : ¬ Spec.DraftPrivate := by
  intro h
  have hp : getUserDraftPath mixedDB.home (ascii "U") (ascii "0") = .ok (ascii "/bbs/home/U/U/buf.0") := by decide +kernel
  have hl : accountsFS.lookup mixedDB.cwd (ascii "/bbs/home/U/U/buf.0") = .ok draftPlace := by decide +kernel
  have hn : accountsFS.get draftPlace = none := Option.isNone_iff_eq_none.mp (by decide +kernel)
  obtain ⟨fs', perm', h1, k, h2⟩ := C148_readers mixedDB mixedCodec ⟨99, 99, [], 0o022⟩ ⟨1000, 1000, [], 0o022⟩ accountsFS accountsPerm (ascii "U") (ascii "0")
    (ascii "/bbs/home/U/U/buf.0") (ascii "x") draftPlace hp hl hn (by decide +kernel) (by decide +kernel) (by decide +kernel) (by decide) (by decide) 0 0
  have h3 := h mixedDB mixedCodec ⟨99, 99, [], 0o022⟩ ⟨1000, 1000, [], 0o022⟩ accountsFS accountsPerm (ascii "U") (ascii "0") (ascii "x") [0, 0] (List.replicate k 0)
    (by decide) (by decide) (by decide) (fun p e => by
      rw [hp] at e
      rw [← Res.ok.inj e, ← FS.lookup_eq hl]
      exact hn) (by rw [h1])
  rw [h1] at h3
  exact h3 (h2 (List.replicate k 0) (by simp))

/-- The hypotheses of `C148_readers` hold with a mask that hides the draft as well. -/
example : (⟨99, 99, [], 0o077⟩ : Account).umask &&& 0o004 = 0o004 ∧ (accountsPerm draftPlace.dropLast).mayWrite ⟨99, 99, [], 0o077⟩ = true := by decide +kernel

/-- With the mask 027 an account in the group of the draft reads it and one that is not does not; in a directory with the bit 2000 the group is that of
the directory. -/
example : (⟨1001, 1001, [99], 0⟩ : Account).isIn (Perm.made ⟨99, 99, [], 0o027⟩ (accountsPerm draftPlace.dropLast) 0o644).group = true ∧
    (0o027 : UInt32) &&& 0o040 ≠ 0o040 ∧ (⟨1000, 1000, [], 0⟩ : Account).isIn (Perm.made ⟨99, 99, [], 0o027⟩ (accountsPerm draftPlace.dropLast) 0o644).group = false ∧
    (0o027 : UInt32) &&& 0o004 = 0o004 ∧ (Perm.made ⟨99, 99, [], 0o027⟩ ⟨99, 100, 0o2775⟩ 0o644) = ⟨99, 100, 0o640⟩ := by decide

/-- The hypotheses of `C148_barred` hold if the home of the user has mode 0700. -/
example : Job.barred ⟨1000, 1000, [99], 0o022⟩ mixedDB.cwd accountsFS
    (fun q => if q = [ascii "bbs", ascii "home", ascii "U", ascii "U"] then ⟨99, 99, 0o700⟩ else accountsPerm q) (ascii "/bbs/home/U/U/buf.0") = true := by
  decide +kernel

/-- The hypotheses of `C148_owner` hold, with a mask that hides the draft from the one who saves it. -/
example : (⟨99, 99, [], 0o477⟩ : Account).umask &&& 0o400 = 0o400 ∧ (accountsPerm draftPlace.dropLast).mayWrite ⟨99, 99, [], 0o477⟩ = true := by decide +kernel

/-- The hypotheses of `C147_kept` hold for the list of boards, when account 1000 wants to add a board to it: it is told so. -/
example : accountsFS.get [ascii "bbs", ascii ".BRD"] = some (.file (ascii "boards")) ∧ accountsFS.get [ascii "bbs"] = some .dir ∧
    (accountsPerm [ascii "bbs", ascii ".BRD"]).mayWrite ⟨1000, 1000, [], 0o022⟩ = false ∧ (accountsPerm [ascii "bbs"]).mayWrite ⟨1000, 1000, [], 0o022⟩ = false :=
  ⟨by decide +kernel, by decide +kernel, by decide +kernel, by decide +kernel⟩

/-- Account 1000 saves a draft where it may not. -/
def intruder : Nat → List Call := fun p => if p = 1 then [.writeDraft (ascii "U") (ascii "0") (ascii "y")] else if p = 0 then
  [.writeDraft (ascii "U") (ascii "0") (ascii "x")] else []

def intruders : Nat → Account := fun p => if p = 1 then ⟨1000, 1000, [], 0o022⟩ else ⟨99, 99, [], 0o022⟩

def ownersRun := (fresh accountsFS intruder).runAs mixedDB mixedCodec intruders accountsPerm [(0, 0), (0, 0), (0, 0), (0, 0)]

/-- The hypotheses of `C147_partial` (and of `C147_made`) hold: client 0 has saved the draft, client 1 wants to. -/
example : accountsFS.get draftPlace = none ∧ ownersRun.1.fs.get draftPlace = some (.file (ascii "x")) ∧
    ownersRun.1.fs.get draftPlace.dropLast = some .dir ∧ Shut (ownersRun.2.1 draftPlace.dropLast) ∧ (ownersRun.1.clients 1).now.isNone = true ∧
    Foreign (ownersRun.2.1 draftPlace) (intruders 1) ∧ Foreign (ownersRun.2.1 draftPlace.dropLast) (intruders 1) := by
  unfold Shut Foreign
  decide +kernel

/-- The hypotheses of `C148_existing` and of `C147_added` hold for the list of boards. -/
example : (accountsFS.get [ascii "bbs", ascii ".BRD"]).isSome = true ∧ (∀ p, ∀ op ∈ intruder p, Keeps mixedDB [ascii "bbs", ascii ".BRD"] op) := by
  refine ⟨by decide +kernel, fun p op hop => ?_⟩
  unfold intruder at hop
  split at hop
  · rw [List.mem_singleton.mp hop]; trivial
  · split at hop
    · rw [List.mem_singleton.mp hop]; trivial
    · cases hop

/-- The hypotheses of `C147_none_made` hold: two accounts that may not write to the directory want to save a draft. -/
example : accountsFS.get draftPlace = none ∧ (accountsFS.get draftPlace.dropLast).isSome = true ∧
    (∀ p, ∀ op ∈ intruder p, Keeps mixedDB draftPlace.dropLast op) ∧ ∀ p : Nat, (accountsPerm draftPlace.dropLast).mayWrite ⟨p + 100, p + 100, [], 0⟩ = false := by
  refine ⟨by decide +kernel, by decide +kernel, fun p op hop => ?_, fun p => ?_⟩
  · unfold intruder at hop
    split at hop
    · rw [List.mem_singleton.mp hop]; trivial
    · split at hop
      · rw [List.mem_singleton.mp hop]; trivial
      · cases hop
  · exact foreign_write ⟨by simp, by simp [accountsPerm]⟩ ⟨by show (0o755 : UInt32) &&& 0o020 = 0; decide, by show (0o755 : UInt32) &&& 0o002 = 0; decide⟩

/-- The hypothesis of `C147_one_account` holds for an installation under account 99 with mask 022. -/
example : OneAccount (fun _ => ⟨99, 99, [], 0o022⟩) accountsFS accountsPerm :=
  ⟨99, fun _ => .inr ⟨rfl, fun _ => ⟨rfl, (by show (0o022 : UInt32) &&& 0o600 = 0; decide)⟩,
    fun _ => ⟨rfl, (by show (0o755 : UInt32) &&& 0o600 = 0o600; decide), fun _ => (by show (0o755 : UInt32) &&& 0o100 = 0o100; decide)⟩⟩⟩

end Verif
