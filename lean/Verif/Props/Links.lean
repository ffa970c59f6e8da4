import Verif.Model.Links
import Verif.Model.Limits
import Verif.Props.Outage
import Verif.Props.Api
import Verif.Props.Routes
/-!
# C154: one home directory under several names

Symbolic links, and working directories: see `Verif.Model.Links`.
-/

namespace Verif
open Spec

/-! ## The walk -/

theorem follow_nil (d : LinkDisk) (last : Bool) (left : Nat) (cur : Path) : d.follow last left cur [] = .ok (cur, left) := by
  unfold LinkDisk.follow
  rfl

/-- What `follow` meets at a component. -/
def LinkDisk.met (d : LinkDisk) (last : Bool) (cur : Path) (c : Bytes) (cs : List Bytes) : Option Bytes :=
  if cs = [] ∧ last = false then none else d.links.lookup (cur.enter c)

theorem follow_cons (d : LinkDisk) (last : Bool) (left : Nat) (cur : Path) (c : Bytes) (cs : List Bytes) : d.follow last left cur (c :: cs) =
    match d.fs.get cur with
    | none => .err "no such file or directory"
    | some (.file _) => .err "not a directory"
    | some .dir => match d.met last cur c cs with
      | none => d.follow last left (cur.enter c) cs
      | some t => match left with
        | 0 => .err "too many levels of symbolic links"
        | left + 1 => d.follow last left (pathStart cur t) (splitByte slash t ++ cs) := by
  rw [LinkDisk.follow.eq_def]
  simp only
  cases d.fs.get cur with
  | none => rfl
  | some x =>
    cases x with
    | file y => rfl
    | dir =>
      simp only
      show (match d.met last cur c cs, left with
        | none, left => d.follow last left (cur.enter c) cs
        | some _, 0 => .err "too many levels of symbolic links"
        | some t, left + 1 => d.follow last left (pathStart cur t) (splitByte slash t ++ cs)) = _
      cases d.met last cur c cs with
      | none => rfl
      | some t => cases left <;> rfl

/-- Links in the middle of a path: first one part, then the other. -/
theorem follow_append (d : LinkDisk) (last : Bool) : ∀ (left : Nat) (cur : Path) (as bs : List Bytes), bs ≠ [] →
    d.follow last left cur (as ++ bs) = d.follow true left cur as >>= fun x => d.follow last x.2 x.1 bs
  | left, cur, [], bs, _ => by
    rw [List.nil_append, follow_nil]
    rfl
  | left, cur, a :: as, bs, h => by
    rw [List.cons_append, follow_cons, follow_cons]
    have hne : ¬ (as ++ bs = [] ∧ last = false) := fun e => h (List.append_eq_nil_iff.mp e.1).2
    have hne' : ¬ (as = [] ∧ true = false) := fun e => by cases e.2
    have e1 : d.met last cur a (as ++ bs) = d.links.lookup (cur.enter a) := if_neg hne
    have e2 : d.met true cur a as = d.links.lookup (cur.enter a) := if_neg hne'
    rw [e1, e2]
    cases d.fs.get cur with
    | none => rfl
    | some x =>
      cases x with
      | file y => rfl
      | dir =>
        simp only
        cases d.links.lookup (cur.enter a) with
        | none => exact follow_append d last left (cur.enter a) as bs h
        | some t =>
          cases left with
          | zero => rfl
          | succ left =>
            simp only
            rw [← List.append_assoc]
            exact follow_append d last left (pathStart cur t) (splitByte slash t ++ as) bs h
termination_by left _ as => (left, as.length)

/-- Where directories and links stay, so does a way. -/
theorem follow_kept {d e : LinkDisk} (hl : e.links = d.links) (hd : ∀ q, d.fs.get q = some .dir → e.fs.get q = some .dir) (last : Bool) :
    ∀ (left : Nat) (cur : Path) (cs : List Bytes) (x : Path × Nat), d.follow last left cur cs = .ok x → e.follow last left cur cs = .ok x
  | left, cur, [], x, h => by
    rw [follow_nil] at h ⊢
    exact h
  | left, cur, a :: as, x, h => by
    rw [follow_cons] at h ⊢
    have hm : e.met last cur a as = d.met last cur a as := by unfold LinkDisk.met; rw [hl]
    cases hc : d.fs.get cur with
    | none => rw [hc] at h; cases h
    | some y =>
      cases y with
      | file z => rw [hc] at h; cases h
      | dir =>
        rw [hc] at h
        rw [hd cur hc, hm]
        simp only at h ⊢
        cases hk : d.met last cur a as with
        | none =>
          rw [hk] at h
          exact follow_kept hl hd last left (cur.enter a) as x h
        | some t =>
          rw [hk] at h
          cases left with
          | zero => cases h
          | succ left => exact follow_kept hl hd last left (pathStart cur t) (splitByte slash t ++ as) x h
termination_by left _ cs => (left, cs.length)

/-- No link lies at or below `l`. -/
def Spec.Bare (d : LinkDisk) (l : Path) : Prop := ∀ e ∈ d.links, ¬ l <+: e.1

theorem bare_lookup {d : LinkDisk} {l q : Path} (h : Bare d l) (hq : l <+: q) : d.links.lookup q = none := by
  rw [List.lookup_eq_none_iff]
  intro e he
  have := h e he
  simp only [bne_iff_ne, ne_eq]
  rintro rfl
  exact this hq

theorem enter_below {l q : Path} {c : Bytes} (h : l <+: q) (hc : c ≠ ascii "..") : l <+: q.enter c := by
  unfold Path.enter
  have hc' : c ≠ [dot, dot] := hc
  rw [if_neg hc']
  split
  · exact h
  · exact h.trans (List.prefix_append _ _)

/-- Without links below `l`, the walk from there is the plain one. -/
theorem follow_bare {d : LinkDisk} {l : Path} (h : Bare d l) (last : Bool) (left : Nat) : ∀ (cs : List Bytes) (cur : Path), l <+: cur →
    ascii ".." ∉ cs → d.follow last left cur cs = (d.fs.walk cur cs) >>= fun q => .ok (q, left) := by
  intro cs
  induction cs with
  | nil => intro cur _ _; rw [follow_nil]; rfl
  | cons c cs ih =>
    intro cur hcur hup
    rw [List.mem_cons, not_or] at hup
    have hb := enter_below hcur (Ne.symm hup.1)
    have e : d.met last cur c cs = none := by unfold LinkDisk.met; rw [bare_lookup h hb]; split <;> rfl
    rw [follow_cons, FS.walk, e]
    cases d.fs.get cur with
    | none => rfl
    | some x =>
      cases x with
      | file y => rfl
      | dir =>
        exact ih _ hb hup.2

theorem walk_below {fs : FS} {l q : Path} : ∀ (cs : List Bytes) (cur : Path), l <+: cur → ascii ".." ∉ cs → fs.walk cur cs = .ok q → l <+: q := by
  intro cs
  induction cs with
  | nil => intro cur h _ e; cases e; exact h
  | cons c cs ih =>
    intro cur h hup e
    rw [List.mem_cons, not_or] at hup
    rw [FS.walk] at e
    split at e
    · cases e
    · cases e
    · exact ih _ (enter_below h (Ne.symm hup.1)) hup.2 e

/-! ## Names of the home directory -/

/-- The database's name for the home directory leads to the place `l`. -/
def Spec.Leads (d : LinkDisk) (db : DB) (l : Path) : Prop :=
  0 ∉ db.home ∧ ∃ left, d.follow true 40 (pathStart db.cwd (db.home ++ [slash])) (splitByte slash db.home) = .ok (l, left)

/-- The plain absolute name of a place. -/
def Spec.absName (l : Path) : Bytes := (l.map (slash :: ·)).flatten

/-- A real directory: its way from the root consists of directories, with names that are names. -/
structure Spec.RealDir (fs : FS) (l : Path) : Prop where
  dirs : ∀ q, q <+: l → fs.get q = some .dir
  plain : ∀ s ∈ l, Component s ∧ 0 ∉ s

theorem pathStart_slash (cwd : Path) (h rest : Bytes) : pathStart cwd (h ++ slash :: rest) = pathStart cwd (h ++ [slash]) := by
  unfold pathStart
  cases h <;> rfl

theorem lookup_home {d : LinkDisk} {db : DB} {l : Path} (hl : Leads d db l) (hb : Bare d l) (last : Bool) {rest : Bytes}
    (hr : ascii ".." ∉ splitByte slash rest) :
    d.lookup db.cwd last (db.home ++ slash :: rest) = if 0 ∈ rest then .err "invalid argument" else d.fs.walk l (splitByte slash rest) := by
  obtain ⟨h0, left, hf⟩ := hl
  unfold LinkDisk.lookup
  rw [if_neg (by simp)]
  by_cases hz : 0 ∈ rest
  · rw [if_pos (by simp [hz]), if_pos hz]
  · have : (0 : UInt8) ∉ db.home ++ slash :: rest := by
      simp only [List.mem_append, List.mem_cons, not_or]
      exact ⟨h0, by decide, hz⟩
    rw [if_neg this, if_neg hz, pathStart_slash, splitByte_sep, follow_append _ _ _ _ _ _ (splitByte_ne_nil _ _), hf, Res.ok_bind,
      follow_bare hb _ _ _ _ (List.prefix_refl _) hr]
    cases d.fs.walk l (splitByte slash rest) <;> rfl

theorem walk_names {fs : FS} {l : Path} (h : RealDir fs l) : ∀ (as bs : List Bytes), as ++ bs = l → fs.walk as bs = .ok l := by
  intro as bs
  induction bs generalizing as with
  | nil => intro e; rw [← e, List.append_nil]; rfl
  | cons b bs ih =>
    intro e
    rw [FS.walk, h.dirs as ⟨b :: bs, e⟩]
    have hb := (h.plain b (by rw [← e]; simp)).1
    have : Path.enter as b = as ++ [b] := by
      have hb' : b ≠ [dot, dot] := hb.notDotDot
      unfold Path.enter
      rw [if_neg hb', if_neg (by rintro (x | x); exact hb.nonempty x; exact hb.notDot x)]
    rw [this]
    exact ih _ (by simpa using e)

theorem absName_lookup {fs : FS} {l : Path} (h : RealDir fs l) (cwd : Path) (rest : Bytes) :
    fs.lookup cwd (absName l ++ slash :: rest) = if 0 ∈ rest then .err "invalid argument" else fs.walk l (splitByte slash rest) := by
  unfold FS.lookup
  rw [if_neg (by simp)]
  have h0 : (0 : UInt8) ∉ absName l := by
    unfold absName
    intro hm
    obtain ⟨x, hx, hm⟩ := List.mem_flatten.mp hm
    obtain ⟨s, hs, rfl⟩ := List.mem_map.mp hx
    rcases List.mem_cons.mp hm with e | e
    · exact absurd e (by decide)
    · exact (h.plain s hs).2 e
  by_cases hz : 0 ∈ rest
  · rw [if_pos (by simp [hz]), if_pos hz]
  · have : (0 : UInt8) ∉ absName l ++ slash :: rest := by
      simp only [List.mem_append, List.mem_cons, not_or]
      exact ⟨h0, by decide, hz⟩
    have hs : splitByte slash (absName l) = [] :: l := splitByte_flatten l fun s hs => (h.plain s hs).1.noSlash
    have hp : pathStart cwd (absName l ++ slash :: rest) = [] := by
      unfold pathStart absName
      cases l <;> rfl
    rw [if_neg this, if_neg hz, hp, splitByte_sep, hs, FS.walk_append]
    have : fs.walk [] ([] :: l) = .ok l := by
      rw [FS.walk, h.dirs [] (List.nil_prefix)]
      exact walk_names h [] l rfl
    rw [this, Res.ok_bind]

/-! ## System calls -/

theorem stepAt_eq (cwd : Path) (fs : FS) (n : Nat) (p : Bytes) :
    (∀ k, Job.stepAt fs (fs.lookup cwd p) (.stat p k) = Job.step cwd fs n (.stat p k)) ∧
    (∀ k, Job.stepAt fs (fs.lookup cwd p) (.openRead p k) = Job.step cwd fs n (.openRead p k)) ∧
    (∀ k, Job.stepAt fs (fs.lookup cwd p) (.openWrite p k) = Job.step cwd fs n (.openWrite p k)) ∧
    (∀ k, Job.stepAt fs (fs.lookup cwd p) (.openMake p k) = Job.step cwd fs n (.openMake p k)) ∧
    (∀ k, Job.stepAt fs (fs.lookup cwd p) (.openTrunc p k) = Job.step cwd fs n (.openTrunc p k)) ∧
    (∀ k, Job.stepAt fs (fs.lookup cwd p) (.openExcl p k) = Job.step cwd fs n (.openExcl p k)) ∧
    (∀ k, Job.stepAt fs (fs.lookup cwd p) (.unlink p k) = Job.step cwd fs n (.unlink p k)) := by
  refine ⟨?_, ?_, ?_, ?_, ?_, ?_, ?_⟩ <;> intro k <;>
    simp only [Job.stepAt, Job.step, FS.statOk, Job.opened, FS.openCreate, FS.createExcl, FS.remove] <;>
    rcases fs.lookup cwd p with l | e | _ | _ <;> try rfl
  all_goals
    simp only [Res.ok_bind]
    rcases hg : fs.get l with _ | (x | _) <;> try rfl
  · simp [hg]
  · simp [hg]
  · simp only
    by_cases h1 : l = []
    · simp only [if_pos h1]
    · by_cases h2 : fs.hasChild l = true
      · simp only [if_neg h1, if_pos h2]
      · simp only [if_neg h1, if_neg h2]

/-! ## The same call under two names of the home directory -/

/-- The rest of a path, behind the home directory: it does not go up. -/
def Spec.Level (rest : Bytes) : Prop := ascii ".." ∉ splitByte slash rest

/-- The rest of a path whose last component begins with `buf.`. -/
def Spec.NamesDraft (rest : Bytes) : Prop := ∃ cs x, splitByte slash rest = cs ++ [ascii "buf." ++ x]

/-- An open file, if there is one, is below the home directory. -/
def Spec.Under (l : Path) (r : Res Path) : Prop := ∀ q, r = .ok q → l <+: q

/-- Two jobs that differ in the name of the home directory only, and have files below it open. -/
inductive Spec.JobsAlike (l : Path) (h h' : Bytes) : Job → Job → Prop
  | done (r : Res Answer) : JobsAlike l h h' (.done r) (.done r)
  | stat {rest : Bytes} {k k' : Bool → Job} : Level rest → (∀ b, JobsAlike l h h' (k b) (k' b)) → JobsAlike l h h' (.stat (h ++ slash :: rest) k) (.stat (h' ++ slash :: rest) k')
  | openRead {rest : Bytes} {k k' : Res Path → Job} : Level rest → (∀ b, Under l b → JobsAlike l h h' (k b) (k' b)) → JobsAlike l h h' (.openRead (h ++ slash :: rest) k) (.openRead (h' ++ slash :: rest) k')
  | openWrite {rest : Bytes} {k k' : Res Path → Job} : Level rest → (∀ b, Under l b → JobsAlike l h h' (k b) (k' b)) → JobsAlike l h h' (.openWrite (h ++ slash :: rest) k) (.openWrite (h' ++ slash :: rest) k')
  | openMake {rest : Bytes} {k k' : Res Path → Job} : Level rest → (∀ b, Under l b → JobsAlike l h h' (k b) (k' b)) → JobsAlike l h h' (.openMake (h ++ slash :: rest) k) (.openMake (h' ++ slash :: rest) k')
  | openTrunc {rest : Bytes} {k k' : Res Path → Job} : Level rest → (∀ b, Under l b → JobsAlike l h h' (k b) (k' b)) → JobsAlike l h h' (.openTrunc (h ++ slash :: rest) k) (.openTrunc (h' ++ slash :: rest) k')
  | openExcl {rest : Bytes} {k k' : Bool → Job} : Level rest → (∀ b, JobsAlike l h h' (k b) (k' b)) → JobsAlike l h h' (.openExcl (h ++ slash :: rest) k) (.openExcl (h' ++ slash :: rest) k')
  | read {q : Path} {size : Nat} {got : List Bytes} {pos : Nat} {k k' : Res (List Bytes) → Job} : (∀ b, JobsAlike l h h' (k b) (k' b)) →
      JobsAlike l h h' (.read q size got pos k) (.read q size got pos k')
  | append {q : Path} {bs : Bytes} {k k' : Job} : l <+: q → JobsAlike l h h' k k' → JobsAlike l h h' (.append q bs k) (.append q bs k')
  | put {q : Path} {bs : Bytes} {k k' : Job} : l <+: q → JobsAlike l h h' k k' → JobsAlike l h h' (.put q bs k) (.put q bs k')
  | unlink {rest : Bytes} {k k' : Res Unit → Job} : Level rest → NamesDraft rest → (∀ b, JobsAlike l h h' (k b) (k' b)) →
      JobsAlike l h h' (.unlink (h ++ slash :: rest) k) (.unlink (h' ++ slash :: rest) k')

/-- Drafts are no directories. -/
def Spec.DraftsAreFiles (fs : FS) : Prop := ∀ q x, fs.get (q ++ [ascii "buf." ++ x]) ≠ some .dir

theorem walk_draft {fs : FS} {l q : Path} {rest : Bytes} (hd : NamesDraft rest) (h : fs.walk l (splitByte slash rest) = .ok q) :
    ∃ a x, q = a ++ [ascii "buf." ++ x] := by
  obtain ⟨cs, x, e⟩ := hd
  rw [e, FS.walk_append] at h
  obtain ⟨a, _, h⟩ := Res.bind_eq_ok.mp h
  rw [FS.walk] at h
  split at h
  · cases h
  · cases h
  · rw [FS.walk] at h
    have hx : Path.enter a (ascii "buf." ++ x) = a ++ [ascii "buf." ++ x] := by
      unfold Path.enter
      rw [if_neg (by simp [ascii]), if_neg (by simp [ascii, dot])]
    exact ⟨a, x, by rw [← hx]; exact (Res.ok.inj h).symm⟩

/-- Directories are kept, and so is all that is not below `l`. -/
def Spec.KeepsOutside (l : Path) (fs fs' : FS) : Prop := (∀ q, fs.get q = some .dir → fs'.get q = some .dir) ∧ ∀ q, ¬ l <+: q → fs'.get q = fs.get q

theorem keeps_refl (l : Path) (fs : FS) : KeepsOutside l fs fs := ⟨fun _ h => h, fun _ _ => rfl⟩

theorem keeps_set {l : Path} {fs : FS} {p : Path} {x : Bytes} (h : fs.get p ≠ some .dir) (hl : l <+: p) : KeepsOutside l fs (fs.set p (.file x)) := by
  refine ⟨fun q hq => ?_, fun q hq => ?_⟩ <;> rw [FS.get_set (FS.ne_root h)] <;> split
  · next e => subst e; exact absurd hq h
  · exact hq
  · next e => subst e; exact absurd hl hq
  · rfl

theorem keeps_del {l : Path} {fs : FS} {p : Path} (h : fs.get p ≠ some .dir) (hl : l <+: p) : KeepsOutside l fs (fs.del p) := by
  refine ⟨fun q hq => ?_, fun q hq => ?_⟩ <;> rw [FS.get_del (FS.ne_root h)] <;> split
  · next e => subst e; exact absurd hq h
  · exact hq
  · next e => subst e; exact absurd hl hq
  · rfl

/-- A system call at the same place under two names. -/
theorem stepAt_alike {l : Path} {h h' : Bytes} {j j' : Job} (ha : JobsAlike l h h' j j') (hp : j.path? ≠ none) (fs : FS) (r : Res Path) (hu : Under l r)
    (hd : ∀ q, r = .ok q → (∀ p k, j ≠ .unlink p k) ∨ fs.get q ≠ some .dir) :
    (j.stepAt fs r).1 = (j'.stepAt fs r).1 ∧ JobsAlike l h h' (j.stepAt fs r).2 (j'.stepAt fs r).2 ∧ KeepsOutside l fs (j'.stepAt fs r).1 := by
  have herr : ∀ e, Under l (.err e) := fun e q h => by cases h
  cases ha with
  | done r => exact absurd rfl hp
  | stat _ hk => exact ⟨rfl, hk _, keeps_refl _ _⟩
  | openRead _ hk =>
    refine ⟨rfl, hk _ fun q hq => ?_, keeps_refl _ _⟩
    obtain ⟨a, ha, hq⟩ := Res.bind_eq_ok.mp hq
    split at hq <;> cases hq
    exact hu _ ha
  | openWrite _ hk =>
    refine ⟨rfl, hk _ fun q hq => ?_, keeps_refl _ _⟩
    obtain ⟨a, ha, hq⟩ := Res.bind_eq_ok.mp hq
    split at hq <;> cases hq
    exact hu _ ha
  | openMake _ hk =>
    simp only [Job.stepAt]
    rcases r with q | e | _ | _
    · rcases hg : fs.get q with _ | (x | _) <;> simp only [hg]
      · exact ⟨trivial, hk _ hu, keeps_set (by rw [hg]; simp) (hu _ rfl)⟩
      · exact ⟨trivial, hk _ hu, keeps_refl _ _⟩
      · exact ⟨trivial, hk _ (herr _), keeps_refl _ _⟩
    all_goals exact ⟨rfl, hk _ hu, keeps_refl _ _⟩
  | openTrunc _ hk =>
    simp only [Job.stepAt]
    rcases r with q | e | _ | _
    · rcases hg : fs.get q with _ | (x | _) <;> simp only [hg]
      · exact ⟨trivial, hk _ hu, keeps_set (by rw [hg]; simp) (hu _ rfl)⟩
      · exact ⟨trivial, hk _ hu, keeps_set (by rw [hg]; simp) (hu _ rfl)⟩
      · exact ⟨trivial, hk _ (herr _), keeps_refl _ _⟩
    all_goals exact ⟨rfl, hk _ hu, keeps_refl _ _⟩
  | openExcl _ hk =>
    simp only [Job.stepAt]
    rcases r with q | e | _ | _
    · rcases hg : fs.get q with _ | x <;> simp only [hg]
      · exact ⟨trivial, hk _, keeps_set (by rw [hg]; simp) (hu _ rfl)⟩
      · exact ⟨trivial, hk _, keeps_refl _ _⟩
    all_goals exact ⟨rfl, hk _, keeps_refl _ _⟩
  | read _ => exact absurd rfl hp
  | append _ => exact absurd rfl hp
  | put _ => exact absurd rfl hp
  | unlink _ _ hk =>
    simp only [Job.stepAt]
    rcases r with q | e | _ | _
    · have hdir : fs.get q ≠ some .dir := (hd q rfl).resolve_left (fun h => h _ _ rfl)
      rcases hg : fs.get q with _ | (x | _) <;> simp only [hg]
      · exact ⟨trivial, hk _, keeps_refl _ _⟩
      · exact ⟨trivial, hk _, keeps_del hdir (hu _ rfl)⟩
      · exact absurd hg hdir
    all_goals exact ⟨rfl, hk _, keeps_refl _ _⟩

/-- The place of a rest below the home directory. -/
def Spec.placeOf (fs : FS) (l : Path) (rest : Bytes) : Res Path :=
  if 0 ∈ rest then .err "invalid argument" else fs.walk l (splitByte slash rest)

/-- One system call under two names. -/
theorem jobsAlike_step {d : LinkDisk} {db : DB} {l : Path} (hl : Leads d db l) (hb : Bare d l) (hr : RealDir d.fs l) (hf : DraftsAreFiles d.fs)
    {j j' : Job} (h : JobsAlike l db.home (absName l) j j') (cwd : Path) (n : Nat) :
    (d.step db.cwd n j).1 = ⟨(j'.step cwd d.fs n).1, d.links⟩ ∧ JobsAlike l db.home (absName l) (d.step db.cwd n j).2 (j'.step cwd d.fs n).2 ∧
      KeepsOutside l d.fs (j'.step cwd d.fs n).1 := by
  have key : ∀ {j j' : Job} {r : Res Path}, JobsAlike l db.home (absName l) j j' → j.path? ≠ none → Under l r → j'.step cwd d.fs n = j'.stepAt d.fs r →
      d.step db.cwd n j = (⟨(j.stepAt d.fs r).1, d.links⟩, (j.stepAt d.fs r).2) →
      (∀ q, r = .ok q → (∀ p k, j ≠ .unlink p k) ∨ d.fs.get q ≠ some .dir) →
      (d.step db.cwd n j).1 = ⟨(j'.step cwd d.fs n).1, d.links⟩ ∧ JobsAlike l db.home (absName l) (d.step db.cwd n j).2 (j'.step cwd d.fs n).2 ∧
        KeepsOutside l d.fs (j'.step cwd d.fs n).1 := by
    intro j j' r ha hp hu e1 e2 hd
    obtain ⟨a, b, c⟩ := stepAt_alike ha hp d.fs r hu hd
    rw [e1, e2, a]
    exact ⟨rfl, b, c⟩
  have e1 : ∀ {rest : Bytes} (last : Bool), Level rest → d.lookup db.cwd last (db.home ++ slash :: rest) = placeOf d.fs l rest :=
    fun last hv => lookup_home hl hb last hv
  have e2 : ∀ rest : Bytes, d.fs.lookup cwd (absName l ++ slash :: rest) = placeOf d.fs l rest := fun rest => absName_lookup hr cwd rest
  have below : ∀ {rest : Bytes} {q : Path}, Level rest → placeOf d.fs l rest = .ok q → l <+: q := by
    intro rest q hv hq
    unfold placeOf at hq
    split at hq
    · cases hq
    · exact walk_below _ _ (List.prefix_refl _) hv hq
  have hj := h
  cases h with
  | done r => exact ⟨rfl, .done r, keeps_refl _ _⟩
  | @stat rest k k' hv hk =>
    refine key hj (by simp [Job.path?]) (fun _ => below hv) ((e2 rest) ▸ ((stepAt_eq cwd d.fs n _).1 k').symm) ?_ (fun _ _ => .inl (by simp))
    simp only [LinkDisk.step, e1 true hv]
  | @openRead rest k k' hv hk =>
    refine key hj (by simp [Job.path?]) (fun _ => below hv) ((e2 rest) ▸ ((stepAt_eq cwd d.fs n _).2.1 k').symm) ?_ (fun _ _ => .inl (by simp))
    simp only [LinkDisk.step, e1 true hv]
  | @openWrite rest k k' hv hk =>
    refine key hj (by simp [Job.path?]) (fun _ => below hv) ((e2 rest) ▸ ((stepAt_eq cwd d.fs n _).2.2.1 k').symm) ?_ (fun _ _ => .inl (by simp))
    simp only [LinkDisk.step, e1 true hv]
  | @openMake rest k k' hv hk =>
    refine key hj (by simp [Job.path?]) (fun _ => below hv) ((e2 rest) ▸ ((stepAt_eq cwd d.fs n _).2.2.2.1 k').symm) ?_ (fun _ _ => .inl (by simp))
    simp only [LinkDisk.step, e1 true hv]
  | @openTrunc rest k k' hv hk =>
    refine key hj (by simp [Job.path?]) (fun _ => below hv) ((e2 rest) ▸ ((stepAt_eq cwd d.fs n _).2.2.2.2.1 k').symm) ?_ (fun _ _ => .inl (by simp))
    simp only [LinkDisk.step, e1 true hv]
  | @openExcl rest k k' hv hk =>
    refine key hj (by simp [Job.path?]) (fun _ => below hv) ((e2 rest) ▸ ((stepAt_eq cwd d.fs n _).2.2.2.2.2.1 k').symm) ?_ (fun _ _ => .inl (by simp))
    simp only [LinkDisk.step, e1 false hv]
    cases hq : placeOf d.fs l rest with
    | ok q =>
      have : ¬ (d.links.lookup q).isSome = true := by rw [bare_lookup hb (below hv hq)]; simp
      simp only [if_neg this]
    | err e => rfl
    | panic => rfl
    | diverge => rfl
  | @read q size got pos k k' hk =>
    simp only [LinkDisk.step, Job.step]
    split
    · split
      · exact ⟨rfl, .read hk, keeps_refl _ _⟩
      · exact ⟨rfl, hk _, keeps_refl _ _⟩
    · split
      · exact ⟨rfl, hk _, keeps_refl _ _⟩
      · exact ⟨rfl, .read hk, keeps_refl _ _⟩
    · exact ⟨rfl, hk _, keeps_refl _ _⟩
  | @append q bs k k' hu hk =>
    simp only [LinkDisk.step, Job.step]
    split
    · next e => exact ⟨rfl, hk, keeps_set (by rw [e]; simp) hu⟩
    · exact ⟨rfl, hk, keeps_refl _ _⟩
  | @put q bs k k' hu hk =>
    simp only [LinkDisk.step, Job.step]
    split
    · next e => exact ⟨rfl, hk, keeps_set (by rw [e]; simp) hu⟩
    · exact ⟨rfl, hk, keeps_refl _ _⟩
  | @unlink rest k k' hv hn hk =>
    have nd : ∀ q, placeOf d.fs l rest = .ok q → d.fs.get q ≠ some .dir := by
      intro q hq
      unfold placeOf at hq
      split at hq
      · cases hq
      · obtain ⟨a, x, rfl⟩ := walk_draft hn hq
        exact hf a x
    refine key hj (by simp [Job.path?]) (fun _ => below hv) ((e2 rest) ▸ ((stepAt_eq cwd d.fs n _).2.2.2.2.2.2 k').symm) ?_ (fun q hq => .inr (nd q hq))
    simp only [LinkDisk.step, e1 false hv]
    cases hq : placeOf d.fs l rest with
    | ok q =>
      have : ¬ (d.links.lookup q).isSome = true := by rw [bare_lookup hb (below hv hq)]; simp
      have h2 : ¬ (d.fs.get q = some .dir ∧ d.linkBelow q = true) := fun h => nd q hq h.1
      simp only [if_neg this, if_neg h2]
    | err e => rfl
    | panic => rfl
    | diverge => rfl

/-! ## Calls and clients -/

theorem splitByte_inj {a b : Bytes} (h : splitByte slash a = splitByte slash b) : a = b := by
  rw [← splitByte_join slash a, h, splitByte_join]

/-- The path of an object under two names of the home directory. -/
theorem path_both (h h' : Bytes) (o : Obj) : (∃ rest, o.path h = .ok (h ++ slash :: rest) ∧ o.path h' = .ok (h' ++ slash :: rest) ∧ splitByte slash rest = o.pieces) ∨
    (o.path h = .panic ∧ o.path h' = .panic) := by
  by_cases hn : o.owner = some []
  · right
    cases o <;> simp only [Obj.owner, Option.some.injEq, reduceCtorEq] at hn <;> subst hn <;> exact ⟨rfl, rfl⟩
  · left
    obtain ⟨r, e, es⟩ := Obj.path_eq h o hn
    obtain ⟨r', e', es'⟩ := Obj.path_eq h' o hn
    have : r' = r := splitByte_inj (es'.trans es.symm)
    subst this
    exact ⟨r', e, e', es⟩

/-- The names in a call do not go up, and a draft that is removed has a plain name. -/
structure Spec.CallLevel (op : Call) : Prop where
  names : ∀ o, touches op o → ∀ s ∈ o.names, NoUp s
  draft : ∀ u d, op = .deleteDraft u d → slash ∉ d

theorem alike_orStop {α : Type} {l : Path} {h h' : Bytes} {k k' : α → Job} (r : Res α) (hk : ∀ a, r = .ok a → JobsAlike l h h' (k a) (k' a)) :
    JobsAlike l h h' (Job.orStop k r) (Job.orStop k' r) := by
  cases r with
  | ok a => exact hk a rfl
  | err e => exact .done _
  | panic => exact .done _
  | diverge => exact .done _

theorem alike_path {l : Path} {h h' : Bytes} {k k' : Bytes → Job} (o : Obj) (hn : ∀ s ∈ o.names, NoUp s)
    (hk : ∀ rest, Level rest → splitByte slash rest = o.pieces → JobsAlike l h h' (k (h ++ slash :: rest)) (k' (h' ++ slash :: rest))) :
    JobsAlike l h h' (Job.orStop k (o.path h)) (Job.orStop k' (o.path h')) := by
  rcases path_both h h' o with ⟨rest, e, e', es⟩ | ⟨e, e'⟩
  · rw [e, e']
    have hl : Level rest := by unfold Level; rw [es]; exact o.pieces_noUp hn
    exact hk rest hl es
  · rw [e, e']
    exact .done _

theorem alike_readList {α : Type} {l : Path} {h h' rest : Bytes} {size : Nat} {parse : Bytes → Res α} {k k' : List α → Job} (hv : Level rest)
    (hk : ∀ x, JobsAlike l h h' (k x) (k' x)) :
    JobsAlike l h h' (Job.readList (h ++ slash :: rest) size parse k) (Job.readList (h' ++ slash :: rest) size parse k') :=
  .openRead hv fun r _ => alike_orStop r fun _ _ => .read fun g => alike_orStop g fun _ _ => alike_orStop _ fun l _ => hk l

theorem alike_readWhole {l : Path} {h h' rest : Bytes} {k k' : Bytes → Job} (hv : Level rest) (hk : ∀ x, JobsAlike l h h' (k x) (k' x)) :
    JobsAlike l h h' (Job.readWhole (h ++ slash :: rest) k) (Job.readWhole (h' ++ slash :: rest) k') :=
  .openRead hv fun r _ => alike_orStop r fun _ _ => .read fun g => alike_orStop g fun _ _ => hk _

theorem alike_tryNames (l : Path) (db db' : DB) {b o d t : Bytes} {draw : Nat → Int × Fin 4096}
    (hn : ∀ k, ∀ s ∈ (Obj.article b (DB.articleName (draw k).1 (draw k).2)).names, NoUp s) :
    ∀ fuel k, JobsAlike l db.home db'.home (Job.tryNames db b o d t draw fuel k) (Job.tryNames db' b o d t draw fuel k)
  | 0, _ => .done _
  | fuel + 1, k => by
    unfold Job.tryNames
    refine alike_path (.article b (DB.articleName (draw k).1 (draw k).2)) (hn k) fun rest hv _ => .openExcl hv fun r => ?_
    cases r with
    | true => exact .done _
    | false => exact alike_tryNames l db db' hn fuel (k + 1)

/-- A call under two names. -/
theorem alike_start (l : Path) (db db' : DB) (c : Codec) {op : Call} (h : CallLevel op) :
    JobsAlike l db.home db'.home (Job.start db c op) (Job.start db' c op) := by
  cases op with
  | readUsers =>
    rw [Job.start, Job.start]
    exact alike_path (h := db.home) (h' := db'.home) .passwd (h.names _ rfl) fun _ hv _ => alike_readList hv fun _ => .done _
  | readFavourites u =>
    refine alike_path (.favourite u) (h.names _ (.inl rfl)) fun rest hv _ => .stat hv fun r => ?_
    cases r with
    | false => exact .done _
    | true =>
      exact alike_readWhole hv fun _ => alike_orStop _ fun _ _ => alike_path .boardList (h.names _ (.inr rfl)) fun _ hv' _ =>
        alike_readList hv' fun _ => alike_orStop _ fun _ _ => .done _
  | readBoards =>
    rw [Job.start, Job.start]
    exact alike_path (h := db.home) (h' := db'.home) .boardList (h.names _ rfl) fun _ hv _ => alike_readList hv fun _ => .done _
  | listArticles b =>
    refine alike_path (.articleIndex b) (h.names _ rfl) fun rest hv _ => .openRead hv fun r _ => ?_
    cases r with
    | ok l => exact .read fun g => alike_orStop g fun _ _ => alike_orStop _ fun _ _ => .done _
    | err e => exact .done _
    | panic => exact .done _
    | diverge => exact .done _
  | listTreasure b ds => exact alike_path (.treasureIndex b ds) (h.names _ rfl) fun _ hv _ => alike_readList hv fun _ => .done _
  | readArticle b f => exact alike_path (.article b f) (h.names _ rfl) fun _ hv _ => alike_readWhole hv fun _ => .done _
  | readTreasure b ds f => exact alike_path (.treasure b ds f) (h.names _ rfl) fun _ hv _ => alike_readWhole hv fun _ => .done _
  | addBoard r =>
    rw [Job.start, Job.start]
    exact alike_path (h := db.home) (h' := db'.home) .boardList (h.names _ rfl) fun _ hv _ => .openMake hv fun r hu => alike_orStop r fun _ e => .append (hu _ e) (.done _)
  | createArticle b o d t draw fuel => exact alike_tryNames l db db' (fun k => h.names _ ⟨k, rfl⟩) fuel 0
  | addRecord b r => exact alike_path (.articleIndex b) (h.names _ rfl) fun _ hv _ => .openMake hv fun r hu => alike_orStop r fun _ e => .append (hu _ e) (.done _)
  | writeArticle b f x => exact alike_path (.article b f) (h.names _ rfl) fun _ hv _ => .openMake hv fun r hu => alike_orStop r fun _ e => .put (hu _ e) (.done _)
  | appendArticle b f x => exact alike_path (.article b f) (h.names _ rfl) fun _ hv _ => .openWrite hv fun r hu => alike_orStop r fun _ e => .append (hu _ e) (.done _)
  | readDraft u d =>
    refine alike_path (.draft u d) (h.names _ rfl) fun rest hv _ => .stat hv fun r => ?_
    cases r with
    | false => exact .done _
    | true => exact alike_readWhole hv fun _ => .done _
  | deleteDraft u d =>
    refine alike_path (.draft u d) (h.names _ rfl) fun rest hv es => .unlink hv ⟨ascii "home" :: (splitByte slash (fmtC (u.headD 0)) ++ splitByte slash u), d, ?_⟩ fun r => alike_orStop r fun _ _ => .done _
    rw [es]
    have : splitByte slash (ascii "buf." ++ d) = [ascii "buf." ++ d] := by
      refine splitByte_of_not_mem ?_
      rw [List.mem_append, not_or]
      exact ⟨by decide, h.draft u d rfl⟩
    simp only [Obj.pieces, this]
    rw [← List.cons_append]
  | writeDraft u d x => exact alike_path (.draft u d) (h.names _ rfl) fun _ hv _ => .openTrunc hv fun r hu => alike_orStop r fun _ e => .put (hu _ e) (.done _)

/-- What a client knows, under two names. -/
def Spec.SameClient (l : Path) (h h' : Bytes) (x x' : Client) : Prop :=
  x.todo = x'.todo ∧ ((x.now = none ∧ x'.now = none) ∨ ∃ j j', x.now = some j ∧ x'.now = some j' ∧ JobsAlike l h h' j j')

/-- Clients on a disk with links, and clients without links, that have come to the same point. -/
structure Spec.SameSite (dbs : Nat → DB) (l : Path) (s : LinkSite) (s' : Site) : Prop where
  fs : s'.fs = s.disk.fs
  bare : Bare s.disk l
  real : RealDir s.disk.fs l
  drafts : DraftsAreFiles s.disk.fs
  leads : ∀ p, Leads s.disk (dbs p) l
  clients : ∀ p, SameClient l (dbs p).home (absName l) (s.clients p) (s'.clients p)
  level : ∀ p, ∀ op ∈ (s.clients p).todo, CallLevel op

theorem linkStep_busy {dbs : Nat → DB} {c : Codec} {s : LinkSite} {p n : Nat} {todo : List Call} {j : Job} (hx : s.clients p = ⟨todo, some j⟩)
    (hn : ∀ r, j ≠ .done r) : s.step dbs c p n = (s.setClient (s.disk.step (dbs p).cwd n j).1 p ⟨todo, some (s.disk.step (dbs p).cwd n j).2⟩, []) := by
  unfold LinkSite.step
  rw [hx]
  cases todo <;> cases j <;> first | rfl | exact absurd rfl (hn _)

theorem siteStep_busy {db : DB} {c : Codec} {s : Site} {p n : Nat} {todo : List Call} {j : Job} (hx : s.clients p = ⟨todo, some j⟩)
    (hn : ∀ r, j ≠ .done r) : s.step db c p n = (s.setClient (j.step db.cwd s.fs n).1 p ⟨todo, some (j.step db.cwd s.fs n).2⟩, []) := by
  unfold Site.step
  rw [hx]
  cases todo <;> cases j <;> first | rfl | exact absurd rfl (hn _)

theorem sameSite_step {dbs : Nat → DB} {l : Path} {s : LinkSite} {s' : Site} (h : SameSite dbs l s s') (cwd : Path) (c : Codec) (p n : Nat) :
    SameSite dbs l (s.step dbs c p n).1 (s'.step ⟨absName l, cwd⟩ c p n).1 ∧ (s.step dbs c p n).2 = (s'.step ⟨absName l, cwd⟩ c p n).2 ∧
      (s.step dbs c p n).1.disk.links = s.disk.links ∧ KeepsOutside l s.disk.fs (s.step dbs c p n).1.disk.fs := by
  obtain ⟨htodo, hnow⟩ := h.clients p
  have hlev := h.level p
  have hset : ∀ (x x' : Client), SameClient l (dbs p).home (absName l) x x' → (∀ op ∈ x.todo, CallLevel op) →
      SameSite dbs l (s.setClient s.disk p x) (s'.setClient s'.fs p x') := by
    intro x x' hx hl
    refine ⟨h.fs, h.bare, h.real, h.drafts, h.leads, ?_, ?_⟩
    · intro q
      simp only [LinkSite.setClient, Site.setClient]
      split
      · next e => subst e; exact hx
      · exact h.clients q
    · intro q
      simp only [LinkSite.setClient]
      split
      · exact hl
      · exact h.level q
  cases hx : s.clients p with
  | mk todo now =>
  cases hx' : s'.clients p with
  | mk todo' now' =>
  rw [hx, hx'] at htodo hnow
  rw [hx] at hlev
  simp only at htodo hnow
  subst htodo
  rcases hnow with ⟨rfl, rfl⟩ | ⟨j, j', rfl, rfl, hj⟩
  · unfold LinkSite.step Site.step
    rw [hx, hx']
    cases todo with
    | nil => exact ⟨h, rfl, rfl, keeps_refl _ _⟩
    | cons op rest =>
      exact ⟨hset _ _ ⟨rfl, .inr ⟨_, _, rfl, rfl, alike_start l (dbs p) ⟨absName l, cwd⟩ c (hlev op (by simp))⟩⟩ fun o ho => hlev o (by simp [ho]), rfl, rfl, keeps_refl _ _⟩
  · have hdone : (∃ r, j = .done r ∧ j' = .done r) ∨ (∀ r, j ≠ .done r) ∧ ∀ r, j' ≠ .done r := by
      cases hj with
      | done r => exact .inl ⟨r, rfl, rfl⟩
      | _ => exact .inr ⟨by simp, by simp⟩
    rcases hdone with ⟨r, rfl, rfl⟩ | ⟨hn, hn'⟩
    · have hs := hset ⟨todo, none⟩ ⟨todo, none⟩ ⟨rfl, .inl ⟨rfl, rfl⟩⟩ hlev
      unfold LinkSite.step Site.step
      rw [hx, hx']
      cases todo <;> exact ⟨hs, rfl, rfl, keeps_refl _ _⟩
    · obtain ⟨e1, e2, e3⟩ := jobsAlike_step (h.leads p) h.bare h.real h.drafts hj cwd n
      rw [linkStep_busy hx hn, siteStep_busy hx' hn', h.fs, e1]
      have hback : ∀ q, (j'.step cwd s.disk.fs n).1.get q = some .dir → s.disk.fs.get q = some .dir := fun q => step_dirs cwd _ n j' q
      refine ⟨⟨rfl, h.bare, ⟨fun q hq => e3.1 q (h.real.dirs q hq), h.real.plain⟩, fun a x hd => h.drafts a x (hback _ hd), fun q => ?_, ?_, ?_⟩, rfl, rfl, e3⟩
      · obtain ⟨h0, left, hf⟩ := h.leads q
        exact ⟨h0, left, follow_kept (d := s.disk) (e := ⟨(j'.step cwd s.disk.fs n).1, s.disk.links⟩) rfl e3.1 _ _ _ _ _ hf⟩
      · intro q
        simp only [LinkSite.setClient, Site.setClient]
        split
        · next e => subst e; exact ⟨rfl, .inr ⟨_, _, rfl, rfl, e2⟩⟩
        · exact h.clients q
      · intro q
        simp only [LinkSite.setClient]
        split
        · exact hlev
        · exact h.level q

theorem sameSite_run {dbs : Nat → DB} {l : Path} (cwd : Path) (c : Codec) (sched : List (Nat × Nat)) : ∀ {s : LinkSite} {s' : Site}, SameSite dbs l s s' →
    SameSite dbs l (s.run dbs c sched).1 (s'.run ⟨absName l, cwd⟩ c sched).1 ∧ (s.run dbs c sched).2 = (s'.run ⟨absName l, cwd⟩ c sched).2 ∧
      (s.run dbs c sched).1.disk.links = s.disk.links ∧ KeepsOutside l s.disk.fs (s.run dbs c sched).1.disk.fs := by
  induction sched with
  | nil => intro s s' h; exact ⟨h, rfl, rfl, keeps_refl _ _⟩
  | cons x sched ih =>
    intro s s' h
    obtain ⟨a, b, e, f⟩ := sameSite_step h cwd c x.1 x.2
    obtain ⟨a', b', e', f'⟩ := ih a
    exact ⟨a', by simp only [LinkSite.run, Site.run, b, b'], by simp only [LinkSite.run, e', e],
      ⟨fun q hq => f'.1 q (f.1 q hq), fun q hq => (f'.2 q hq).trans (f.2 q hq)⟩⟩

/-! ## The property -/

/-- Clients at rest, whose calls do not go up, with names `dbs` of the real directory `l`. -/
structure Spec.HomeNamed (dbs : Nat → DB) (l : Path) (s : LinkSite) : Prop where
  leads : ∀ p, Leads s.disk (dbs p) l
  real : RealDir s.disk.fs l
  drafts : DraftsAreFiles s.disk.fs
  idle : ∀ p, (s.clients p).now = none
  level : ∀ p, ∀ op ∈ (s.clients p).todo, CallLevel op

/-- Whatever names the clients have for one home directory, they share one database, and change nothing that is not in that directory. -/
def Spec.OneDatabase : Prop :=
  ∀ (dbs dbs' : Nat → DB) (l : Path) (c : Codec) (s : LinkSite) (sched : List (Nat × Nat)), HomeNamed dbs l s → HomeNamed dbs' l s →
    (s.run dbs c sched).2 = (s.run dbs' c sched).2 ∧ (s.run dbs c sched).1.disk = (s.run dbs' c sched).1.disk ∧
      ∀ q, ¬ l <+: q → (s.run dbs c sched).1.disk.fs.get q = s.disk.fs.get q

/-- With links: what the clients see and leave is what clients see and leave that name the directory plainly, on a disk without links. -/
theorem C154_plain (dbs : Nat → DB) (l cwd : Path) (c : Codec) (s : LinkSite) (sched : List (Nat × Nat)) (h : HomeNamed dbs l s) (hb : Bare s.disk l) :
    (s.run dbs c sched).2 = ((⟨s.disk.fs, s.clients⟩ : Site).run ⟨absName l, cwd⟩ c sched).2 ∧
      (s.run dbs c sched).1.disk = ⟨((⟨s.disk.fs, s.clients⟩ : Site).run ⟨absName l, cwd⟩ c sched).1.fs, s.disk.links⟩ := by
  have h0 : SameSite dbs l s ⟨s.disk.fs, s.clients⟩ :=
    ⟨rfl, hb, h.real, h.drafts, h.leads, fun p => ⟨rfl, .inl ⟨h.idle p, h.idle p⟩⟩, h.level⟩
  obtain ⟨a, b, e, _⟩ := sameSite_run cwd c sched h0
  refine ⟨b, ?_⟩
  rw [a.fs, ← e]

/-- No link in the home directory: one database, whatever its names; and nothing outside changes. -/
theorem C154_one_database_partial (dbs dbs' : Nat → DB) (l : Path) (c : Codec) (s : LinkSite) (sched : List (Nat × Nat)) (h : HomeNamed dbs l s)
    (h' : HomeNamed dbs' l s) (hb : Bare s.disk l) :
    (s.run dbs c sched).2 = (s.run dbs' c sched).2 ∧ (s.run dbs c sched).1.disk = (s.run dbs' c sched).1.disk ∧
      ∀ q, ¬ l <+: q → (s.run dbs c sched).1.disk.fs.get q = s.disk.fs.get q := by
  obtain ⟨a, b⟩ := C154_plain dbs l [] c s sched h hb
  obtain ⟨a', b'⟩ := C154_plain dbs' l [] c s sched h' hb
  have h0 : SameSite dbs l s ⟨s.disk.fs, s.clients⟩ :=
    ⟨rfl, hb, h.real, h.drafts, h.leads, fun p => ⟨rfl, .inl ⟨h.idle p, h.idle p⟩⟩, h.level⟩
  exact ⟨a.trans a'.symm, b.trans b'.symm, (sameSite_run [] c sched h0).2.2.2.2⟩

/-- A disk without links is the disk of `Verif.Go.FS`. -/
theorem C154_none (cwd : Path) (fs : FS) (n : Nat) (j : Job) : LinkDisk.step cwd ⟨fs, []⟩ n j = (⟨(j.step cwd fs n).1, []⟩, (j.step cwd fs n).2) := by
  have hw : ∀ (last : Bool) (left : Nat) (cs : List Bytes) (cur : Path), LinkDisk.follow ⟨fs, []⟩ last left cur cs = fs.walk cur cs >>= fun q => .ok (q, left) := by
    intro last left cs
    induction cs with
    | nil => intro cur; rw [follow_nil]; rfl
    | cons x cs ih =>
      intro cur
      have e : LinkDisk.met ⟨fs, []⟩ last cur x cs = none := by unfold LinkDisk.met; split <;> rfl
      rw [follow_cons, FS.walk, e]
      simp only
      cases fs.get cur with
      | none => rfl
      | some y =>
        cases y with
        | file z => rfl
        | dir => exact ih _
  have hl : ∀ (last : Bool) (p : Bytes), LinkDisk.lookup ⟨fs, []⟩ cwd last p = fs.lookup cwd p := by
    intro last p
    unfold LinkDisk.lookup FS.lookup
    split
    · rfl
    · split
      · rfl
      · rw [hw]
        cases fs.walk (pathStart cwd p) (splitByte slash p) <;> rfl
  cases j with
  | done r => rfl
  | read => rfl
  | append => rfl
  | put => rfl
  | stat p k => rw [← (stepAt_eq cwd fs n p).1 k]; simp only [LinkDisk.step, hl]
  | openRead p k => rw [← (stepAt_eq cwd fs n p).2.1 k]; simp only [LinkDisk.step, hl]
  | openWrite p k => rw [← (stepAt_eq cwd fs n p).2.2.1 k]; simp only [LinkDisk.step, hl]
  | openMake p k => rw [← (stepAt_eq cwd fs n p).2.2.2.1 k]; simp only [LinkDisk.step, hl]
  | openTrunc p k => rw [← (stepAt_eq cwd fs n p).2.2.2.2.1 k]; simp only [LinkDisk.step, hl]
  | openExcl p k =>
    rw [← (stepAt_eq cwd fs n p).2.2.2.2.2.1 k]
    simp only [LinkDisk.step, hl]
    cases fs.lookup cwd p <;> rfl
  | unlink p k =>
    rw [← (stepAt_eq cwd fs n p).2.2.2.2.2.2 k]
    simp only [LinkDisk.step, hl]
    cases fs.lookup cwd p with
    | ok l =>
      have : ¬ (fs.get l = some .dir ∧ LinkDisk.linkBelow ⟨fs, []⟩ l = true) := fun h => by cases h.2
      simp only [List.lookup_nil, Option.isSome_none, Bool.false_eq_true, if_false, if_neg this]
    | err e => rfl
    | panic => rfl
    | diverge => rfl

/-- No call makes a link, whatever the links and the names. -/
theorem C154_none_made (dbs : Nat → DB) (c : Codec) (sched : List (Nat × Nat)) : ∀ s : LinkSite, (s.run dbs c sched).1.disk.links.Sublist s.disk.links := by
  induction sched with
  | nil => exact fun s => List.Sublist.refl _
  | cons x sched ih =>
    intro s
    have hstep : ∀ (cwd : Path) (d : LinkDisk) (n : Nat) (j : Job), (d.step cwd n j).1.links.Sublist d.links := by
      intro cwd d n j
      cases j with
      | openExcl p k =>
        simp only [LinkDisk.step]
        split
        · split <;> exact List.Sublist.refl _
        · exact List.Sublist.refl _
      | unlink p k =>
        simp only [LinkDisk.step]
        split
        · split
          · exact List.filter_sublist
          · split <;> exact List.Sublist.refl _
        · exact List.Sublist.refl _
      | _ => exact List.Sublist.refl _
    have hs : (s.step dbs c x.1 x.2).1.disk.links.Sublist s.disk.links := by
      unfold LinkSite.step
      split
      · exact List.Sublist.refl _
      · exact List.Sublist.refl _
      · exact List.Sublist.refl _
      · exact hstep _ _ _ _
    exact (ih _).trans hs

/-! ## A link out of the home directory -/

/-- `LinkDisk.follow`, as a search that may be computed. -/
def Spec.followN (d : LinkDisk) (last : Bool) : Nat → Nat → Path → List Bytes → Option (Path × Nat)
  | 0, _, _, _ => none
  | _ + 1, left, cur, [] => some (cur, left)
  | fuel + 1, left, cur, c :: cs => match d.fs.get cur with
    | some .dir => match d.met last cur c cs with
      | none => followN d last fuel left (cur.enter c) cs
      | some t => match left with
        | 0 => none
        | left + 1 => followN d last fuel left (pathStart cur t) (splitByte slash t ++ cs)
    | _ => none

theorem followN_eq (d : LinkDisk) (last : Bool) (x : Path × Nat) : ∀ (fuel left : Nat) (cur : Path) (cs : List Bytes), followN d last fuel left cur cs = some x →
    d.follow last left cur cs = .ok x := by
  intro fuel
  induction fuel with
  | zero => intro left cur cs h; cases h
  | succ fuel ih =>
    intro left cur cs h
    cases cs with
    | nil => rw [follow_nil]; exact congrArg Res.ok (Option.some.inj h)
    | cons c cs =>
      rw [follow_cons]
      rw [followN] at h
      split at h
      · next hg =>
        rw [hg]
        simp only
        split at h
        · exact ih _ _ _ h
        · split at h
          · cases h
          · exact ih _ _ _ h
      · cases h

namespace LinkExample

/-- `/h` is the home directory with board `b`; `/l` is a link to `/h`; there is the file `/x`. -/
def disk : LinkDisk :=
  ⟨⟨[([ascii "h"], .dir), ([ascii "h", ascii "boards"], .dir), ([ascii "h", ascii "boards", ascii "b"], .dir),
    ([ascii "h", ascii "boards", ascii "b", ascii "b"], .dir), ([ascii "x"], .file (ascii "1"))]⟩, [([ascii "l"], ascii "/h")]⟩

/-- The same, and article `a` of board `b` is a link to `/x`. -/
def open_ : LinkDisk := ⟨disk.fs, ([ascii "h", ascii "boards", ascii "b", ascii "b", ascii "a"], ascii "/x") :: disk.links⟩

def clients : Nat → Client := fun _ => ⟨[.writeArticle (ascii "b") (ascii "a") (ascii "2")], none⟩

theorem real : RealDir disk.fs [ascii "h"] := by
  refine ⟨fun q hq => ?_, ?_⟩
  · rcases List.prefix_cons_iff.mp hq with rfl | ⟨t, rfl, ht⟩
    · rfl
    · rw [List.prefix_nil.mp ht]
      decide
  · intro s hs
    rw [List.mem_singleton.mp hs]
    exact ⟨⟨by decide, by decide, by decide, by decide⟩, by decide⟩

theorem drafts (ls : List (Path × Bytes)) : DraftsAreFiles (LinkDisk.mk disk.fs ls).fs := by
  intro q x h
  rcases q with _ | ⟨a, _ | ⟨b, _ | ⟨c, _ | ⟨e, q⟩⟩⟩⟩ <;>
    simp [FS.get, disk, List.lookup, ascii] at h
  split at h
  · next e => simp at e
  · cases h

theorem leads {home : Bytes} (ls : List (Path × Bytes)) (h0 : 0 ∉ home)
    (h : ∃ left, followN ⟨disk.fs, ls⟩ true 9 40 (pathStart [] (home ++ [slash])) (splitByte slash home) = some ([ascii "h"], left)) :
    Leads ⟨disk.fs, ls⟩ ⟨home, []⟩ [ascii "h"] := by
  obtain ⟨left, h⟩ := h
  exact ⟨h0, left, followN_eq _ _ _ _ _ _ _ h⟩

theorem level : CallLevel (.writeArticle (ascii "b") (ascii "a") (ascii "2")) := by
  refine ⟨fun o h => ?_, fun _ _ h => by cases h⟩
  cases h
  intro s hs
  simp only [Obj.names, List.mem_cons, List.not_mem_nil, or_false] at hs
  rcases hs with rfl | rfl <;> (unfold NoUp; decide)

theorem named {dbs : Nat → DB} (ls : List (Path × Bytes)) (h : ∀ p, Leads ⟨disk.fs, ls⟩ (dbs p) [ascii "h"]) :
    HomeNamed dbs [ascii "h"] ⟨⟨disk.fs, ls⟩, clients⟩ := by
  refine ⟨h, real, drafts ls, fun _ => rfl, fun p op hop => ?_⟩
  rw [List.mem_singleton.mp hop]
  exact level

end LinkExample

open LinkExample in
example : HomeNamed (fun p => if p = 0 then ⟨ascii "/h", []⟩ else if p = 1 then ⟨ascii "/l", []⟩ else ⟨ascii "./l/.", []⟩) [ascii "h"] ⟨disk, clients⟩ ∧
    Bare disk [ascii "h"] := by
  refine ⟨named disk.links fun p => ?_, by unfold Bare; decide⟩
  split
  · exact leads _ (by decide) ⟨40, by decide⟩
  · split
    · exact leads _ (by decide) ⟨39, by decide⟩
    · exact leads _ (by decide) ⟨39, by decide⟩

/-- An article that is a link to a file outside of the home directory: writing the article changes that file. -/
theorem C154_one_database_refuted : ¬ Spec.OneDatabase := by
  intro h
  have hn := LinkExample.named (dbs := fun _ => ⟨ascii "/h", []⟩) LinkExample.open_.links fun _ => LinkExample.leads _ (by decide) ⟨40, by decide⟩
  have hk := (h _ _ _ asciiCodec ⟨LinkExample.open_, LinkExample.clients⟩ [(0, 0), (0, 0), (0, 0)] hn hn).2.2 [ascii "x"] (by decide)
  have hl : LinkExample.open_.lookup [] true (ascii "/h/boards/b/b/a") = .ok [ascii "x"] := by
    unfold LinkDisk.lookup
    rw [if_neg (by decide), if_neg (by decide), followN_eq _ _ ([ascii "x"], 39) 20 _ _ _ (by decide)]
    rfl
  have e1 : Job.start ⟨ascii "/h", []⟩ asciiCodec (.writeArticle (ascii "b") (ascii "a") (ascii "2")) =
      .openMake (ascii "/h/boards/b/b/a") (Job.orStop fun l => .put l (ascii "2") (.done (.ok .done))) := by rfl
  simp [LinkSite.run, LinkSite.step, LinkExample.clients, LinkSite.setClient, e1, LinkDisk.step, hl] at hk
  revert hk
  decide

end Verif
