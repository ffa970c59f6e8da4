import Verif.Props.Accounts
/-!
# C160: files stay in directories that are there; what nobody may search nobody changes
-/

namespace Verif
open Spec

/-- Whatever is there is in a directory that is there. -/
def Spec.Tree (fs : FS) : Prop := ∀ (q : Path) (x : Bytes), (fs.get (q ++ [x])).isSome = true → fs.get q = some .dir

theorem tree_up {fs : FS} (h : Tree fs) {l : Path} (hl : (fs.get l).isSome = true) (h0 : l ≠ []) : fs.get l.dropLast = some .dir := by
  obtain ⟨q, x, rfl⟩ := List.eq_nil_or_concat l |>.resolve_left h0
  rw [List.concat_eq_append] at hl ⊢
  rw [List.dropLast_concat]
  exact h q x hl

/-- Entering a component of a path, from a directory. -/
theorem enter_dir {fs : FS} (h : Tree fs) {cur : Path} (hc : fs.get cur = some .dir) (c : Bytes) :
    fs.get (cur.enter c) = some .dir ∨ c ≠ [] ∧ cur.enter c = cur ++ [c] := by
  unfold Path.enter
  split
  · exact .inl hc
  · next h1 =>
    split
    · by_cases h0 : cur = []
      · subst h0; exact .inl rfl
      · exact .inl (tree_up h (by rw [hc]; rfl) h0)
    · exact .inr ⟨fun e => h1 (.inl e), rfl⟩

theorem walk_ends {fs : FS} (h : Tree fs) (cs : List Bytes) : ∀ {cur l : Path}, fs.get cur = some .dir → fs.walk cur cs = .ok l →
    fs.get l = some .dir ∨ l ≠ [] ∧ fs.get l.dropLast = some .dir ∧
      ∀ (a : Account) (perm : Path → Perm), (perm l.dropLast).maySearch a = false → Job.barredFrom a fs perm cur cs = true := by
  induction cs with
  | nil => intro cur l hc hw; cases hw; exact .inl hc
  | cons c cs ih =>
    intro cur l hc hw
    unfold FS.walk at hw
    rw [hc] at hw
    simp only at hw
    have go : fs.get (cur.enter c) = some .dir → fs.get l = some .dir ∨ l ≠ [] ∧ fs.get l.dropLast = some .dir ∧
        ∀ (a : Account) (perm : Path → Perm), (perm l.dropLast).maySearch a = false → Job.barredFrom a fs perm cur (c :: cs) = true := by
      intro hd
      refine (ih hd hw).imp_right fun ⟨h1, h2, h3⟩ => ⟨h1, h2, fun a perm hs => ?_⟩
      have := h3 a perm hs
      unfold Job.barredFrom
      rw [hc]
      simp only
      split
      · next e =>
        rw [e, show cur.enter [] = cur by simp [Path.enter]] at this
        exact this
      · rw [this, Bool.or_true]
    rcases enter_dir h hc c with hd | ⟨h1, h2⟩
    · exact go hd
    · by_cases hd : fs.get (cur.enter c) = some .dir
      · exact go hd
      · cases cs with
        | cons c' cs =>
          unfold FS.walk at hw
          split at hw
          · cases hw
          · cases hw
          · next e => exact absurd e hd
        | nil =>
          cases hw
          rw [h2]
          refine .inr ⟨by simp, by rw [List.dropLast_concat]; exact hc, fun a perm hs => ?_⟩
          rw [List.dropLast_concat] at hs
          unfold Job.barredFrom
          rw [hc]
          simp [h1, hs]

/-- A name leads to a directory, or into one; then nobody gets there who may not search it. -/
theorem lookup_ends {fs : FS} (h : Tree fs) {cwd l : Path} {p : Bytes} (hl : fs.lookup cwd p = .ok l) :
    fs.get l = some .dir ∨ l ≠ [] ∧ fs.get l.dropLast = some .dir ∧
      ∀ (a : Account) (perm : Path → Perm), (perm l.dropLast).maySearch a = false → Job.barred a cwd fs perm p = true := by
  unfold FS.lookup at hl
  split at hl
  · cases hl
  · next h0 =>
    split at hl
    · cases hl
    · next hz =>
      have hs : fs.get (pathStart cwd p) = some .dir := by
        cases e : splitByte slash p with
        | nil => exact absurd e (splitByte_ne_nil _ _)
        | cons c cs =>
          rw [e] at hl
          unfold FS.walk at hl
          split at hl
          · cases hl
          · cases hl
          · next h => exact h
      refine (walk_ends h _ hs hl).imp_right fun ⟨h1, h2, h3⟩ => ⟨h1, h2, fun a perm hp => ?_⟩
      unfold Job.barred
      rw [h3 a perm hp]
      simp [h0, hz]

theorem tree_set {fs : FS} (h : Tree fs) {l : Path} {x : Bytes} (h0 : l ≠ []) (hd : fs.get l ≠ some .dir) (hp : fs.get l.dropLast = some .dir) :
    Tree (fs.set l (.file x)) := by
  intro q y hq
  rw [FS.get_set h0] at hq ⊢
  by_cases e : q ++ [y] = l
  · rw [← e, List.dropLast_concat] at hp
    rw [if_neg fun e' => hd (by rw [← e']; exact hp)]
    exact hp
  · rw [if_neg e] at hq
    have := h q y hq
    rw [if_neg fun e' => hd (by rw [← e']; exact this)]
    exact this

theorem tree_write {fs : FS} (h : Tree fs) {l : Path} {d x : Bytes} (hf : fs.get l = some (.file d)) : Tree (fs.set l (.file x)) := by
  have h0 : l ≠ [] := FS.ne_root (fs := fs) (by rw [hf]; simp)
  exact tree_set h h0 (by rw [hf]; simp) (tree_up h (by rw [hf]; rfl) h0)

theorem tree_del {fs : FS} (h : Tree fs) {l : Path} (h0 : l ≠ []) (hc : fs.get l = some .dir → fs.hasChild l = false) : Tree (fs.del l) := by
  intro q y hq
  rw [FS.get_del h0] at hq ⊢
  split at hq
  · cases hq
  · have := h q y hq
    rw [if_neg fun e => ?_]
    · exact this
    · subst e
      have := hc this
      rw [FS.hasChild_iff.mpr ⟨q ++ [y], by simp, by simp, hq⟩] at this
      cases this

theorem tree_openCreate {fs : FS} (h : Tree fs) {cwd l : Path} {p d : Bytes} (hl : fs.openCreate cwd p = .ok (l, d)) (x : Bytes) : Tree (fs.set l (.file x)) := by
  obtain ⟨h1, h2, -⟩ := FS.openCreate_ok hl
  obtain ⟨h3, h4, -⟩ := (lookup_ends h h1).resolve_left h2
  exact tree_set h h3 h2 h4

/-- **C160, one system call**, refused or not. -/
theorem tree_step {fs : FS} (h : Tree fs) (cwd : Path) (n : Nat) (e : Option String) (j : Job) : Tree (j.stepUnder cwd fs n e).1 := by
  cases e with
  | some e => cases j <;> exact h
  | none =>
    simp only [Job.stepUnder]
    cases j with
    | done r => exact h
    | stat p k => exact h
    | openRead p k => exact h
    | openWrite p k => exact h
    | openMake p k =>
      simp only [Job.step]
      split
      · next e =>
        dsimp only
        split
        · exact tree_openCreate h e _
        · exact h
      all_goals exact h
    | openTrunc p k =>
      simp only [Job.step]
      split
      · next e => exact tree_openCreate h e _
      all_goals exact h
    | openExcl p k =>
      simp only [Job.step]
      split
      · next e =>
        unfold FS.createExcl at e
        obtain ⟨l, hl, e⟩ := Res.bind_eq_ok.mp e
        split at e
        · next hn =>
          cases e
          have hd : fs.get l ≠ some .dir := by rw [hn]; simp
          obtain ⟨h3, h4, -⟩ := (lookup_ends h hl).resolve_left hd
          exact tree_set h h3 hd h4
        · cases e
      · exact h
    | read l size got pos k =>
      simp only [Job.step]
      split
      · split <;> exact h
      · split <;> exact h
      · exact h
    | append l bs k =>
      simp only [Job.step]
      split
      · next e => exact tree_write h e
      · exact h
    | put l bs k =>
      simp only [Job.step]
      split
      · next e => exact tree_write h e
      · exact h
    | unlink p k =>
      simp only [Job.step]
      split
      · next e =>
        unfold FS.remove at e
        obtain ⟨l, -, e⟩ := Res.bind_eq_ok.mp e
        split at e
        · cases e
        · next hg =>
          cases e
          exact tree_del h (FS.ne_root (fs := fs) (by rw [hg]; simp)) fun e => by rw [hg] at e; cases e
        · split at e
          · cases e
          · next hl =>
            split at e
            · cases e
            · next hc =>
              cases e
              exact tree_del h hl fun _ => Bool.eq_false_iff.mpr hc
      all_goals exact h

theorem tree_stepUnder {db : DB} {c : Codec} {s : Site} (h : Tree s.fs) (p n : Nat) (e : Option String) : Tree (s.stepUnder db c p n e).1.fs := by
  unfold Site.stepUnder
  split
  · exact h
  · exact h
  · exact h
  · exact tree_step h _ _ _ _

theorem tree_stepAs {db : DB} {c : Codec} {who : Nat → Account} {s : Site} {perm : Path → Perm} (h : Tree s.fs) (p n : Nat) :
    Tree (s.stepAs db c who perm p n).1.fs := by
  unfold Site.stepAs
  split
  · exact tree_stepUnder h p n none
  · exact tree_stepUnder h p n _

/-- **C160.** On a disk on which everything is in a directory that is there, it stays so under all calls of all clients, whatever the system refuses. -/
theorem C160_tree (db : DB) (c : Codec) (s : Site) (h : Tree s.fs) (sched : List (Nat × Nat × Option String)) : Tree (s.runUnder db c sched).1.fs := by
  induction sched generalizing s with
  | nil => exact h
  | cons x sched ih =>
    obtain ⟨p, n, e⟩ := x
    exact ih _ (tree_stepUnder h p n e)

/-- A system call that does not name the file, or is refused, leaves it alone. -/
theorem away_step {cwd l : Path} {j : Job} (hj : Barred l j) {fs : FS} {d : Bytes} (n : Nat) {e : Option String} (hf : fs.get l = some (.file d))
    (h : ∀ p, j.named = some p → fs.lookup cwd p = .ok l → e ≠ none) :
    (j.stepUnder cwd fs n e).1.get l = some (.file d) ∧ Barred l (j.stepUnder cwd fs n e).2 := by
  cases e with
  | some e =>
    cases j with
    | read l' size got pos k =>
      simp only [Job.stepUnder]
      split
      · exact ⟨hf, hj _⟩
      · exact ⟨hf, hj⟩
    | done r => exact ⟨hf, trivial⟩
    | stat p k => exact ⟨hf, hj _⟩
    | openRead p k => exact ⟨hf, hj _⟩
    | openWrite p k => exact ⟨hf, hj _ nofun⟩
    | openMake p k => exact ⟨hf, hj _ nofun⟩
    | openTrunc p k => exact ⟨hf, hj _ nofun⟩
    | openExcl p k => exact ⟨hf, hj _⟩
    | append l' bs k => exact ⟨hf, trivial⟩
    | put l' bs k => exact ⟨hf, trivial⟩
    | unlink p k => exact ⟨hf, hj _⟩
  | none =>
    have no : ∀ {p}, j.named = some p → fs.lookup cwd p ≠ .ok l := fun hn hl => h _ hn hl rfl
    simp only [Job.stepUnder]
    cases j with
    | done r => exact ⟨hf, trivial⟩
    | stat p k => exact ⟨hf, hj _⟩
    | openRead p k => exact ⟨hf, hj _⟩
    | openWrite p k =>
      refine ⟨hf, hj _ fun e => ?_⟩
      unfold Job.opened at e
      obtain ⟨l', h3, h4⟩ := Res.bind_eq_ok.mp e
      have : l' = l := by
        split at h4
        · cases h4
        · split at h4 <;> cases h4
          rfl
        · cases h4; rfl
      exact no rfl (by rw [← this]; exact h3)
    | openMake p k =>
      simp only [Job.step]
      split
      · next l' d' ho =>
        have hne : l' ≠ l := by rintro rfl; exact no rfl (FS.openCreate_ok ho).1
        refine ⟨?_, hj _ fun e => hne (by cases e; rfl)⟩
        simp only
        split
        · rw [get_set_ne hne]; exact hf
        · exact hf
      all_goals exact ⟨hf, hj _ nofun⟩
    | openTrunc p k =>
      simp only [Job.step]
      split
      · next l' d' ho =>
        have hne : l' ≠ l := by rintro rfl; exact no rfl (FS.openCreate_ok ho).1
        exact ⟨by rw [get_set_ne hne]; exact hf, hj _ fun e => hne (by cases e; rfl)⟩
      all_goals exact ⟨hf, hj _ nofun⟩
    | openExcl p k =>
      simp only [Job.step]
      split
      · next fs' ho =>
        refine ⟨?_, hj _⟩
        unfold FS.createExcl at ho
        obtain ⟨l', h3, h4⟩ := Res.bind_eq_ok.mp ho
        split at h4
        · cases h4
          rw [get_set_ne (by rintro rfl; exact no rfl h3)]; exact hf
        · cases h4
      · exact ⟨hf, hj _⟩
    | read l' size got pos k =>
      simp only [Job.step]
      split
      · split
        · exact ⟨hf, hj⟩
        · exact ⟨hf, hj _⟩
      · split
        · exact ⟨hf, hj _⟩
        · exact ⟨hf, hj⟩
      · exact ⟨hf, hj _⟩
    | append l' bs k =>
      simp only [Job.step]
      split
      · exact ⟨by rw [get_set_ne hj.1]; exact hf, hj.2⟩
      · exact ⟨hf, hj.2⟩
    | put l' bs k =>
      simp only [Job.step]
      split
      · exact ⟨by rw [get_set_ne hj.1]; exact hf, hj.2⟩
      · exact ⟨hf, hj.2⟩
    | unlink p k =>
      simp only [Job.step]
      split
      · next fs' ho =>
        refine ⟨?_, hj _⟩
        unfold FS.remove at ho
        obtain ⟨l', h3, h4⟩ := Res.bind_eq_ok.mp ho
        have hne : l' ≠ l := by rintro rfl; exact no rfl h3
        split at h4
        · cases h4
        · cases h4; rw [get_del_ne hne]; exact hf
        · split at h4
          · cases h4
          · split at h4
            · cases h4
            · cases h4; rw [get_del_ne hne]; exact hf
      all_goals exact ⟨hf, hj _⟩

theorem either_step {cwd l : Path} {j : Job} {fs : FS} (ht : Tree fs) (hj : Barred l j) {perm : Path → Perm} {a : Account} {d : Bytes} (n : Nat)
    (hf : fs.get l = some (.file d))
    (h : (perm l).mayWrite a = false ∧ (perm l.dropLast).mayWrite a = false ∨ (perm l.dropLast).maySearch a = false) :
    (j.stepUnder cwd fs n (j.denied a cwd fs perm)).1.get l = some (.file d) ∧
    Barred l (j.stepUnder cwd fs n (j.denied a cwd fs perm)).2 := by
  rcases h with ⟨h1, h2⟩ | h
  · exact barred_step hj n hf h1 h2
  · refine away_step hj n hf fun p hn hl e => ?_
    have := ((lookup_ends ht hl).resolve_left (by rw [hf]; simp)).2.2 a perm h
    rw [(denied_none hn e).2] at this
    cases this

/-- **C147, nobody else changes a file, exactly who.** Whatever calls are made by clients whose accounts may not write to the file and its directory, or may not
search the directory: the file keeps its content, its owner and its mode. So a directory of mode 0700 keeps a file of mode 0666. -/
theorem C147_away (db : DB) (c : Codec) (who : Nat → Account) (s : Site) (perm : Path → Perm) (l : Path) (d : Bytes) (ht : Tree s.fs)
    (hf : s.fs.get l = some (.file d)) (sched : List (Nat × Nat))
    (h : ∀ x ∈ sched, (s.clients x.1).now = none ∧
      ((perm l).mayWrite (who x.1) = false ∧ (perm l.dropLast).mayWrite (who x.1) = false ∨ (perm l.dropLast).maySearch (who x.1) = false)) :
    (s.runAs db c who perm sched).1.fs.get l = some (.file d) ∧ (s.runAs db c who perm sched).2.1 l = perm l := by
  have hl : l ≠ [] := by rintro rfl; simp [FS.get] at hf
  have hd : s.fs.get l.dropLast = some .dir := tree_up ht (by rw [hf]; rfl) hl
  have key : ∀ (sched : List (Nat × Nat)) (s : Site) (pm : Path → Perm), s.fs.get l = some (.file d) → s.fs.get l.dropLast = some .dir → Tree s.fs →
      pm l = perm l → pm l.dropLast = perm l.dropLast →
      (∀ x ∈ sched, (∀ j, (s.clients x.1).now = some j → Barred l j) ∧
        ((perm l).mayWrite (who x.1) = false ∧ (perm l.dropLast).mayWrite (who x.1) = false ∨ (perm l.dropLast).maySearch (who x.1) = false)) →
      (s.runAs db c who pm sched).1.fs.get l = some (.file d) ∧ (s.runAs db c who pm sched).2.1 l = perm l := by
    intro sched
    induction sched with
    | nil => exact fun s pm h1 _ _ h2 _ _ => ⟨h1, h2⟩
    | cons x sched ih =>
      obtain ⟨p, n⟩ := x
      intro s pm h1 h2 ht h3 h4 h5
      obtain ⟨hb, hw⟩ := h5 (p, n) (by simp)
      refine ih (s.stepAs db c who pm p n).1 (s.stepAs db c who pm p n).2.1 ?_ ?_ (tree_stepAs ht p n) ?_ ?_ ?_
      · rcases stepAs_cases db c who s pm p n with ⟨e1, e2⟩ | ⟨j, hj, e1, e2⟩
        · rw [e1]; exact h1
        · rw [e1]; exact (either_step ht (hb j hj) n h1 (by rw [h3, h4]; exact hw)).1
      · rcases stepAs_cases db c who s pm p n with ⟨e1, e2⟩ | ⟨j, hj, e1, e2⟩
        · rw [e1]; exact h2
        · rw [e1]
          refine dir_step h2 (FS.hasChild_iff.mpr ⟨l, ?_, ?_, by rw [h1]; rfl⟩) n _ j
          · have := List.length_pos_iff.mpr hl
            rw [List.length_dropLast]; omega
          · rw [List.dropLast_eq_take, List.length_take, Nat.min_eq_left (Nat.sub_le ..)]
      · rcases stepAs_cases db c who s pm p n with ⟨e1, e2⟩ | ⟨j, hj, e1, e2⟩
        · rw [e2]; exact h3
        · rw [e2]
          unfold Job.permAfter
          rw [if_neg (by rw [h1]; simp)]; exact h3
      · rcases stepAs_cases db c who s pm p n with ⟨e1, e2⟩ | ⟨j, hj, e1, e2⟩
        · rw [e2]; exact h4
        · rw [e2]
          unfold Job.permAfter
          rw [if_neg (by rw [h2]; simp)]; exact h4
      · intro x hx
        obtain ⟨hb', hw'⟩ := h5 x (by simp [hx])
        refine ⟨fun j hj => ?_, hw'⟩
        by_cases e : x.1 = p
        · rw [e] at hj
          have hbp := hb
          simp only at hbp
          unfold Site.stepAs at hj
          cases hn : (s.clients p).now with
          | none =>
            rw [hn] at hj
            simp only [Site.stepUnder] at hj
            split at hj
            · rw [hn] at hj; cases hj
            · simp only [Site.setClient, if_true] at hj
              cases hj
              exact barred_start ..
            · next h => rw [h] at hn; cases hn
            · next h => rw [h] at hn; cases hn
          | some j0 =>
            rw [hn] at hj
            simp only [Site.stepUnder] at hj
            split at hj
            · next h => rw [h] at hn; cases hn
            · next h => rw [h] at hn; cases hn
            · simp only [Site.setClient, if_true] at hj
              cases hj
            · next h =>
              simp only [Site.setClient, if_true] at hj
              rw [h] at hn
              cases hn
              cases hj
              exact (either_step ht (hbp _ (by rw [h])) n h1 (by rw [h3, h4]; exact hw)).2
        · refine hb' j ?_
          rw [← hj]
          unfold Site.stepAs
          split
          · simp only [Site.stepUnder]
            split <;> simp [Site.setClient, e]
          · simp only [Site.stepUnder]
            split <;> simp [Site.setClient, e]
  exact key sched s perm hf hd ht rfl rfl fun x hx => ⟨fun j hj => (by rw [(h x hx).1] at hj; cases hj), (h x hx).2⟩


/-- **C148, a home nobody else may search.** Whoever may not search the directory of the drafts of a user is told that every draft there is empty, and cannot save
or delete one, whatever the modes of the drafts. -/
theorem C148_home (db : DB) (c : Codec) (b : Account) (fs : FS) (ht : Tree fs) (perm : Path → Perm) (u d p x : Bytes) (l : Path)
    (hp : getUserDraftPath db.home u d = .ok p) (hl : fs.lookup db.cwd p = .ok l) (hd : fs.get l ≠ some .dir)
    (hs : (perm l.dropLast).maySearch b = false) (n : Nat) (ns : List Nat) :
    Job.playAs b db.cwd perm (n :: ns) fs (Job.start db c (.readDraft u d)) = (fs, perm, .done (.ok (.bytes []))) ∧
    Job.playAs b db.cwd perm (n :: ns) fs (Job.start db c (.writeDraft u d x)) = (fs, perm, .done (.err "permission denied")) ∧
    Job.playAs b db.cwd perm (n :: ns) fs (Job.start db c (.deleteDraft u d)) = (fs, perm, .done (.err "permission denied")) :=
  C148_barred db c b fs perm u d p x hp (((lookup_ends ht hl).resolve_left hd).2.2 b perm hs) n ns

theorem tree_of_entries {fs : FS} (h : ∀ e ∈ fs.entries, fs.get e.1.dropLast = some .dir) : Tree fs := by
  intro q x hq
  unfold FS.get at hq
  rw [if_neg (by simp)] at hq
  obtain ⟨e, he, e2⟩ := FS.lookup_isSome.mp hq
  have := h e he
  rw [e2, List.dropLast_concat] at this
  exact this

/-- A disk on which everything is in a directory. -/
theorem accounts_tree : Tree accountsFS := tree_of_entries (by decide +kernel)

/-- Everybody may write to everything, but only account 99 may search the directory of the board list. -/
def closedPerm : Path → Perm := fun q => if q = [ascii "bbs"] then ⟨99, 99, 0o700⟩ else ⟨99, 99, 0o777⟩

/-- The hypotheses of `C147_away` hold: account 1000 wants to save a draft, and may write to the list of boards, but not search its directory. -/
example : Tree (fresh accountsFS intruder).fs ∧ (fresh accountsFS intruder).fs.get [ascii "bbs", ascii ".BRD"] = some (.file (ascii "boards")) ∧
    ((fresh accountsFS intruder).clients 1).now = none ∧ (closedPerm [ascii "bbs", ascii ".BRD"]).mayWrite (intruders 1) = true ∧
    (closedPerm ([ascii "bbs", ascii ".BRD"].dropLast)).maySearch (intruders 1) = false :=
  ⟨accounts_tree, by decide +kernel, rfl, by decide +kernel, by decide +kernel⟩

/-- The hypotheses of `C148_home` hold if the home of the user has mode 0700. -/
example : getUserDraftPath mixedDB.home (ascii "U") (ascii "0") = .ok (ascii "/bbs/home/U/U/buf.0") ∧
    accountsFS.lookup mixedDB.cwd (ascii "/bbs/home/U/U/buf.0") = .ok draftPlace ∧ accountsFS.get draftPlace ≠ some .dir ∧
    (⟨99, 99, 0o700⟩ : Perm).maySearch ⟨1000, 1000, [99], 0o022⟩ = false :=
  ⟨by decide +kernel, by decide +kernel, by decide +kernel, by decide +kernel⟩

/-- No call makes a directory. -/
theorem dir_before {cwd q : Path} {fs : FS} (n : Nat) (e : Option String) (j : Job) (h : (j.stepUnder cwd fs n e).1.get q = some .dir) :
    fs.get q = some .dir := by
  have set : ∀ {l : Path} {x : Bytes}, (fs.set l (.file x)).get q = some .dir → fs.get q = some .dir := by
    intro l x h
    by_cases h0 : q = []
    · subst h0; rfl
    · by_cases e : l = q
      · subst e; rw [get_set_self h0] at h; cases h
      · rwa [get_set_ne e] at h
  have del : ∀ {l : Path}, (fs.del l).get q = some .dir → fs.get q = some .dir := by
    intro l h
    by_cases h0 : q = []
    · subst h0; rfl
    · by_cases e : l = q
      · subst e; rw [FS.get_del h0, if_pos rfl] at h; cases h
      · rwa [get_del_ne e] at h
  cases e with
  | some e => cases j <;> exact h
  | none =>
    simp only [Job.stepUnder] at h
    cases j with
    | openMake p k =>
      simp only [Job.step] at h
      split at h
      · dsimp only at h
        split at h
        · exact set h
        · exact h
      all_goals exact h
    | openTrunc p k =>
      simp only [Job.step] at h
      split at h
      · exact set h
      all_goals exact h
    | openExcl p k =>
      simp only [Job.step] at h
      split at h
      · next ho =>
        unfold FS.createExcl at ho
        obtain ⟨l', -, h4⟩ := Res.bind_eq_ok.mp ho
        split at h4 <;> cases h4
        exact set h
      · exact h
    | read l' size got pos k =>
      simp only [Job.step] at h
      split at h
      · split at h <;> exact h
      · split at h <;> exact h
      · exact h
    | append l' bs k =>
      simp only [Job.step] at h
      split at h
      · exact set h
      · exact h
    | put l' bs k =>
      simp only [Job.step] at h
      split at h
      · exact set h
      · exact h
    | unlink p k =>
      simp only [Job.step] at h
      split at h
      · next ho =>
        unfold FS.remove at ho
        obtain ⟨l', -, h4⟩ := Res.bind_eq_ok.mp ho
        split at h4
        · cases h4
        · cases h4; exact del h
        · split at h4
          · cases h4
          · split at h4
            · cases h4
            · cases h4; exact del h
      all_goals exact h
    | _ => exact h

/-- **C147, exactly what is made.** A file that was not there and is there after any calls of any clients is in a directory that was there; it belongs to
the account of one of those that made calls, has the mode 0644 less the mask of that one, and the group of that one, or that of the directory if that has the
bit 2000. -/
theorem C147_made_exact (db : DB) (c : Codec) (who : Nat → Account) (s : Site) (perm : Path → Perm) (sched : List (Nat × Nat)) (l : Path)
    (ht : Tree s.fs) (h : s.fs.get l = none) (h' : ((s.runAs db c who perm sched).1.fs.get l).isSome = true) :
    s.fs.get l.dropLast = some .dir ∧
    ∃ x ∈ sched, (s.runAs db c who perm sched).2.1 l = ⟨(who x.1).uid,
      if (perm l.dropLast).mode &&& 0o2000 = 0 then (who x.1).gid else (perm l.dropLast).group, 0o644 &&& ~~~ (who x.1).umask⟩ := by
  have h0 : l ≠ [] := by rintro rfl; simp [FS.get] at h
  have key : ∀ (rest : List (Nat × Nat)) (cur : Site) (pm : Path → Perm), (∀ x ∈ rest, x ∈ sched) → Tree cur.fs →
      (∀ q, cur.fs.get q = some .dir → s.fs.get q = some .dir ∧ pm q = perm q) →
      ((cur.fs.get l).isSome = true → ∃ x ∈ sched, pm l = .made (who x.1) (perm l.dropLast) 0o644) →
      ((cur.runAs db c who pm rest).1.fs.get l).isSome = true →
      s.fs.get l.dropLast = some .dir ∧ ∃ x ∈ sched, (cur.runAs db c who pm rest).2.1 l = .made (who x.1) (perm l.dropLast) 0o644 := by
    intro rest
    induction rest with
    | nil => exact fun cur pm _ ht hd hm h' => ⟨(hd _ (tree_up ht h' h0)).1, hm h'⟩
    | cons x rest ih =>
      obtain ⟨p, n⟩ := x
      intro cur pm hs ht hd hm h'
      have ht' := tree_stepAs (db := db) (c := c) (who := who) (perm := pm) ht p n
      refine ih (cur.stepAs db c who pm p n).1 (cur.stepAs db c who pm p n).2.1 (fun x hx => hs x (by simp [hx])) ht' (fun q hq => ?_) (fun hl => ?_) h'
      · rcases stepAs_cases db c who cur pm p n with ⟨e1, e2⟩ | ⟨j, hj, e1, e2⟩
        · rw [e2]; exact hd q (by rw [← e1]; exact hq)
        · have hb := dir_before n _ j (by rw [← e1]; exact hq)
          rw [e2]
          unfold Job.permAfter
          rw [if_neg (by rw [hb]; simp)]
          exact hd q hb
      · rcases stepAs_cases db c who cur pm p n with ⟨e1, e2⟩ | ⟨j, hj, e1, e2⟩
        · rw [e2]; exact hm (by rw [← e1]; exact hl)
        · have hu := tree_up ht' hl h0
          rw [e1] at hu
          have hb := dir_before n _ j hu
          rw [e2]
          unfold Job.permAfter
          by_cases hg : (cur.fs.get l).isNone = true
          · rw [if_pos ⟨hg, hl⟩, (hd _ hb).2]
            rw [e1] at hl
            exact ⟨(p, n), hs _ (by simp), by rw [step_makes (Option.isNone_iff_eq_none.mp hg) hl]⟩
          · rw [if_neg fun x => hg x.1]
            exact hm (by cases hx : cur.fs.get l <;> simp_all)
  obtain ⟨h1, x, hx, h2⟩ := key sched s perm (fun _ h => h) ht (fun q hq => ⟨hq, rfl⟩) (fun hs => by rw [h] at hs; cases hs) h'
  refine ⟨h1, x, hx, ?_⟩
  rw [h2]
  unfold Perm.made
  by_cases hm : (perm l.dropLast).mode &&& 0o2000 = 0
  · rw [if_pos hm, hm]; rfl
  · rw [if_neg hm, if_pos (by simpa using hm)]

/-- The hypotheses of `C147_made_exact` hold: account 99 saves a draft in a directory with the bit 2000. -/
example : Tree accountsFS ∧ (fresh accountsFS fun _ => [.writeDraft (ascii "U") (ascii "0") (ascii "x")]).fs.get draftPlace = none ∧
    (((fresh accountsFS fun _ => [.writeDraft (ascii "U") (ascii "0") (ascii "x")]).runAs mixedDB mixedCodec (fun _ => ⟨99, 99, [], 0o022⟩)
      (fun _ => ⟨99, 100, 0o2775⟩) [(3, 0), (3, 0), (3, 0)]).1.fs.get draftPlace).isSome = true :=
  ⟨accounts_tree, Option.isNone_iff_eq_none.mp (by decide +kernel), by decide +kernel⟩

end Verif
