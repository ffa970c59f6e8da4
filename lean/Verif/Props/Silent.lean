import Verif.Props.Tree
/-!
# C161: what an account may not read, its answers do not tell
-/

namespace Verif
open Spec

/-- The two disks are the same but for the content of the file `l`. -/
def Spec.Veiled (l : Path) (fs fs' : FS) : Prop :=
  ∀ q, fs.get q = fs'.get q ∨ q = l ∧ ∃ d d', fs.get q = some (.file d) ∧ fs'.get q = some (.file d')

theorem veiled_isSome {l : Path} {fs fs' : FS} (h : Veiled l fs fs') (q : Path) : (fs.get q).isSome = (fs'.get q).isSome := by
  rcases h q with e | ⟨-, d, d', e, e'⟩
  · rw [e]
  · rw [e, e']; rfl

theorem veiled_isNone {l : Path} {fs fs' : FS} (h : Veiled l fs fs') (q : Path) : (fs.get q).isNone = (fs'.get q).isNone := by
  rcases h q with e | ⟨-, d, d', e, e'⟩
  · rw [e]
  · rw [e, e']; rfl

theorem veiled_walk {l : Path} {fs fs' : FS} (h : Veiled l fs fs') (cs : List Bytes) : ∀ cur, fs.walk cur cs = fs'.walk cur cs := by
  induction cs with
  | nil => intro _; rfl
  | cons c cs ih =>
    intro cur
    unfold FS.walk
    rcases h cur with e | ⟨-, d, d', e, e'⟩
    · rw [e, ih]
    · rw [e, e']

theorem veiled_lookup {l : Path} {fs fs' : FS} (h : Veiled l fs fs') (cwd : Path) (p : Bytes) : fs.lookup cwd p = fs'.lookup cwd p := by
  unfold FS.lookup
  rw [veiled_walk h]

theorem veiled_hasChild {l : Path} {fs fs' : FS} (h : Veiled l fs fs') (q : Path) : fs.hasChild q = fs'.hasChild q := by
  rw [Bool.eq_iff_iff, FS.hasChild_iff, FS.hasChild_iff]
  simp only [veiled_isSome h]

theorem veiled_set {l q : Path} {fs fs' : FS} (h : Veiled l fs fs') (hq : q ≠ []) (n : Node) : Veiled l (fs.set q n) (fs'.set q n) := by
  intro r
  rw [FS.get_set hq, FS.get_set hq]
  split
  · exact .inl rfl
  · exact h r

theorem veiled_del {l q : Path} {fs fs' : FS} (h : Veiled l fs fs') (hq : q ≠ []) : Veiled l (fs.del q) (fs'.del q) := by
  intro r
  rw [FS.get_del hq, FS.get_del hq]
  split
  · exact .inl rfl
  · exact h r

theorem veiled_write {l : Path} {fs fs' : FS} (h : Veiled l fs fs') (hq : l ≠ []) (x y : Bytes) : Veiled l (fs.set l (.file x)) (fs'.set l (.file y)) := by
  intro r
  rw [FS.get_set hq, FS.get_set hq]
  split
  · next e => exact .inr ⟨e, x, y, rfl, rfl⟩
  · exact h r

theorem veiled_opened {l : Path} {fs fs' : FS} (h : Veiled l fs fs') (cwd : Path) (p : Bytes) (w : Bool) :
    Job.opened fs cwd p w = Job.opened fs' cwd p w := by
  unfold Job.opened
  rw [veiled_lookup h]
  cases fs'.lookup cwd p with
  | ok r =>
    rw [Res.ok_bind, Res.ok_bind]
    rcases h r with e | ⟨-, d, d', e, e'⟩
    · rw [e]
    · rw [e, e']
  | err e => rfl
  | panic => rfl
  | diverge => rfl

/-- How an `open` that may make a file goes. -/
theorem veiled_openCreate {l : Path} {fs fs' : FS} (h : Veiled l fs fs') (cwd : Path) (p : Bytes) :
    (∃ r d d', r ≠ [] ∧ fs.openCreate cwd p = .ok (r, d) ∧ fs'.openCreate cwd p = .ok (r, d')) ∨
    (∃ e, fs.openCreate cwd p = .err e ∧ fs'.openCreate cwd p = .err e) ∨
    (fs.openCreate cwd p = .panic ∧ fs'.openCreate cwd p = .panic) ∨ (fs.openCreate cwd p = .diverge ∧ fs'.openCreate cwd p = .diverge) := by
  unfold FS.openCreate
  rw [veiled_lookup h]
  cases fs'.lookup cwd p with
  | ok r =>
    rw [Res.ok_bind, Res.ok_bind]
    rcases h r with e | ⟨-, d, d', e, e'⟩
    · rw [e]
      cases hg : fs'.get r with
      | none => exact .inl ⟨r, [], [], FS.ne_root (fs := fs') (by rw [hg]; simp), rfl, rfl⟩
      | some x => cases x with
        | dir => exact .inr (.inl ⟨_, rfl, rfl⟩)
        | file d => exact .inl ⟨r, d, d, FS.ne_root (fs := fs') (by rw [hg]; simp), rfl, rfl⟩
    · rw [e, e']
      exact .inl ⟨r, d, d', FS.ne_root (fs := fs) (by rw [e]; simp), rfl, rfl⟩
  | err e => exact .inr (.inl ⟨e, rfl, rfl⟩)
  | panic => exact .inr (.inr (.inl ⟨rfl, rfl⟩))
  | diverge => exact .inr (.inr (.inr ⟨rfl, rfl⟩))

theorem veiled_createExcl {l : Path} {fs fs' : FS} (h : Veiled l fs fs') (cwd : Path) (p : Bytes) :
    (∃ r, r ≠ [] ∧ fs.createExcl cwd p = .ok (fs.set r (.file [])) ∧ fs'.createExcl cwd p = .ok (fs'.set r (.file []))) ∨
    ((∀ x, fs.createExcl cwd p ≠ .ok x) ∧ ∀ x, fs'.createExcl cwd p ≠ .ok x) := by
  unfold FS.createExcl
  rw [veiled_lookup h]
  cases fs'.lookup cwd p with
  | ok r =>
    rw [Res.ok_bind, Res.ok_bind]
    rcases h r with e | ⟨-, d, d', e, e'⟩
    · rw [e]
      cases hg : fs'.get r with
      | none => exact .inl ⟨r, FS.ne_root (fs := fs') (by rw [hg]; simp), rfl, rfl⟩
      | some x => exact .inr ⟨nofun, nofun⟩
    · rw [e, e']
      exact .inr ⟨nofun, nofun⟩
  | err e => exact .inr ⟨nofun, nofun⟩
  | panic => exact .inr ⟨nofun, nofun⟩
  | diverge => exact .inr ⟨nofun, nofun⟩

theorem veiled_remove {l : Path} {fs fs' : FS} (h : Veiled l fs fs') (cwd : Path) (p : Bytes) :
    (∃ r, r ≠ [] ∧ fs.remove cwd p = .ok (fs.del r) ∧ fs'.remove cwd p = .ok (fs'.del r)) ∨
    (∃ e, fs.remove cwd p = .err e ∧ fs'.remove cwd p = .err e) ∨
    (fs.remove cwd p = .panic ∧ fs'.remove cwd p = .panic) ∨ (fs.remove cwd p = .diverge ∧ fs'.remove cwd p = .diverge) := by
  unfold FS.remove
  rw [veiled_lookup h]
  cases fs'.lookup cwd p with
  | ok r =>
    rw [Res.ok_bind, Res.ok_bind]
    rcases h r with e | ⟨-, d, d', e, e'⟩
    · rw [e, veiled_hasChild h]
      cases hg : fs'.get r with
      | none => exact .inr (.inl ⟨_, rfl, rfl⟩)
      | some x => cases x with
        | file d => exact .inl ⟨r, FS.ne_root (fs := fs') (by rw [hg]; simp), rfl, rfl⟩
        | dir =>
          dsimp only
          split
          · exact .inr (.inl ⟨_, rfl, rfl⟩)
          · next h0 =>
            split
            · exact .inr (.inl ⟨_, rfl, rfl⟩)
            · exact .inl ⟨r, h0, rfl, rfl⟩
    · rw [e, e']
      exact .inl ⟨r, FS.ne_root (fs := fs) (by rw [e]; simp), rfl, rfl⟩
  | err e => exact .inr (.inl ⟨e, rfl, rfl⟩)
  | panic => exact .inr (.inr (.inl ⟨rfl, rfl⟩))
  | diverge => exact .inr (.inr (.inr ⟨rfl, rfl⟩))

theorem veiled_barred {l : Path} {fs fs' : FS} (h : Veiled l fs fs') (a : Account) (cwd : Path) (perm : Path → Perm) (p : Bytes) :
    Job.barred a cwd fs perm p = Job.barred a cwd fs' perm p := by
  have : ∀ (cs : List Bytes) (cur : Path), Job.barredFrom a fs perm cur cs = Job.barredFrom a fs' perm cur cs := by
    intro cs
    induction cs with
    | nil => intro _; rfl
    | cons c cs ih =>
      intro cur
      unfold Job.barredFrom
      rcases h cur with e | ⟨-, d, d', e, e'⟩
      · rw [e, ih, ih]
      · rw [e, e']
  unfold Job.barred
  rw [this]

/-- Both disks refuse the same. -/
theorem veiled_denied {l : Path} {fs fs' : FS} (h : Veiled l fs fs') (a : Account) (cwd : Path) (perm : Path → Perm) (j : Job) :
    j.denied a cwd fs perm = j.denied a cwd fs' perm := by
  have there : j.deniedThere a cwd fs perm = j.deniedThere a cwd fs' perm := by
    cases j with
    | openRead p k => simp only [Job.deniedThere, veiled_opened h]
    | openWrite p k => simp only [Job.deniedThere, veiled_opened h]
    | openMake p k =>
      simp only [Job.deniedThere]
      rcases veiled_openCreate h cwd p with ⟨r, d, d', -, e, e'⟩ | ⟨x, e, e'⟩ | ⟨e, e'⟩ | ⟨e, e'⟩ <;> rw [e, e']
      simp only [veiled_isSome h]
    | openTrunc p k =>
      simp only [Job.deniedThere]
      rcases veiled_openCreate h cwd p with ⟨r, d, d', -, e, e'⟩ | ⟨x, e, e'⟩ | ⟨e, e'⟩ | ⟨e, e'⟩ <;> rw [e, e']
      simp only [veiled_isSome h]
    | openExcl p k =>
      simp only [Job.deniedThere]
      rcases veiled_createExcl h cwd p with ⟨r, -, e, e'⟩ | ⟨e, e'⟩
      · rw [e, e']
      · split
        · next x => exact absurd x (e _)
        · rfl
    | unlink p k =>
      simp only [Job.deniedThere]
      rcases veiled_remove h cwd p with ⟨r, -, e, e'⟩ | ⟨x, e, e'⟩ | ⟨e, e'⟩ | ⟨e, e'⟩ <;> rw [e, e']
    | _ => rfl
  unfold Job.denied
  rw [there]
  simp only [veiled_barred h]

/-- The call does not read the file, unless an `open` for reading gives it to it. -/
def Spec.Sightless (l : Path) : Job → Prop
  | .done _ => True
  | .stat _ k => ∀ b, Sightless l (k b)
  | .openRead _ k => ∀ r, r ≠ .ok l → Sightless l (k r)
  | .openWrite _ k => ∀ r, Sightless l (k r)
  | .openMake _ k => ∀ r, Sightless l (k r)
  | .openTrunc _ k => ∀ r, Sightless l (k r)
  | .openExcl _ k => ∀ b, Sightless l (k b)
  | .read l' _ _ _ k => l' ≠ l ∧ ∀ r, Sightless l (k r)
  | .append _ _ k => Sightless l k
  | .put _ _ k => Sightless l k
  | .unlink _ k => ∀ r, Sightless l (k r)

theorem sightless_orStop {l : Path} {α : Type} {k : α → Job} {r : Res α} (h : ∀ a, r = .ok a → Sightless l (k a)) : Sightless l (Job.orStop k r) := by
  cases r with
  | ok a => exact h a rfl
  | err e => trivial
  | panic => trivial
  | diverge => trivial

theorem sightless_readList {l : Path} {α : Type} {p : Bytes} {size : Nat} {parse : Bytes → Res α} {k : List α → Job} (hk : ∀ x, Sightless l (k x)) :
    Sightless l (Job.readList p size parse k) :=
  fun _ hr => sightless_orStop fun _ e => ⟨fun e' => hr (by rw [e, e']), fun _ => sightless_orStop fun _ _ => sightless_orStop fun _ _ => hk _⟩

theorem sightless_readWhole {l : Path} {p : Bytes} {k : Bytes → Job} (hk : ∀ x, Sightless l (k x)) : Sightless l (Job.readWhole p k) :=
  fun _ hr => sightless_orStop fun _ e => ⟨fun e' => hr (by rw [e, e']), fun _ => sightless_orStop fun _ _ => hk _⟩

theorem sightless_tryNames {db : DB} {l : Path} {b o d t : Bytes} {draw : Nat → Int × Fin 4096} :
    ∀ fuel k, Sightless l (Job.tryNames db b o d t draw fuel k)
  | 0, _ => trivial
  | fuel + 1, k => by
    unfold Job.tryNames
    refine sightless_orStop fun p hp r => ?_
    cases r with
    | true => trivial
    | false => exact sightless_tryNames fuel (k + 1)

theorem sightless_start (db : DB) (c : Codec) (l : Path) (op : Call) : Sightless l (Job.start db c op) := by
  have make : ∀ {x : Res Bytes} {w : Path → Job}, (∀ l', Sightless l (w l')) →
      Sightless l (Job.orStop (fun p => .openMake p (Job.orStop w)) x) := fun hw =>
    sightless_orStop fun p hp r => sightless_orStop fun l' e => hw l'
  cases op with
  | readUsers => unfold Job.start; exact sightless_orStop fun p hp => sightless_readList fun _ => trivial
  | readFavourites u =>
    refine sightless_orStop fun p hp r => ?_
    cases r with
    | false => trivial
    | true =>
      exact sightless_readWhole fun _ => sightless_orStop fun _ _ => sightless_orStop fun q hq => sightless_readList fun _ => sightless_orStop fun _ _ => trivial
  | readBoards => unfold Job.start; exact sightless_orStop fun p hp => sightless_readList fun _ => trivial
  | listArticles b =>
    refine sightless_orStop fun p hp r hr => ?_
    cases r with
    | err e => trivial
    | ok l => exact ⟨fun e => hr (by rw [e]), fun _ => sightless_orStop fun _ _ => sightless_orStop fun _ _ => trivial⟩
    | panic => trivial
    | diverge => trivial
  | listTreasure b ds => exact sightless_orStop fun p hp => sightless_readList fun _ => trivial
  | readArticle b f => exact sightless_orStop fun p hp => sightless_readWhole fun _ => trivial
  | readTreasure b ds f => exact sightless_orStop fun p hp => sightless_readWhole fun _ => trivial
  | readDraft u d =>
    refine sightless_orStop fun p hp r => ?_
    cases r with
    | false => trivial
    | true => exact sightless_readWhole fun _ => trivial
  | addBoard r => unfold Job.start; exact make fun l' => trivial
  | createArticle b o d t draw fuel => exact sightless_tryNames fuel 0
  | addRecord b r => exact make fun l' => trivial
  | writeArticle b f x => exact make fun l' => trivial
  | appendArticle b f x => exact sightless_orStop fun p hp r => sightless_orStop fun l' e => trivial
  | deleteDraft u d => exact sightless_orStop fun p hp => fun _ => sightless_orStop fun _ _ => trivial
  | writeDraft u d x => exact sightless_orStop fun p hp => fun r => sightless_orStop fun l' e => trivial

/-- A system call that does not open the file for reading leaves the client without it. -/
theorem sightless_step {l cwd : Path} {fs : FS} {j : Job} (hj : Sightless l j) (n : Nat) (e : Option String)
    (h : ∀ p k, j = .openRead p k → fs.lookup cwd p = .ok l → e ≠ none) : Sightless l (j.stepUnder cwd fs n e).2 := by
  cases e with
  | some e =>
    cases j with
    | read l' size got pos k =>
      simp only [Job.stepUnder]
      split
      · exact hj.2 _
      · exact hj
    | done r => trivial
    | openRead p k => exact hj _ nofun
    | append l' bs k => trivial
    | put l' bs k => trivial
    | _ => exact hj _
  | none =>
    simp only [Job.stepUnder]
    cases j with
    | done r => trivial
    | stat p k => exact hj _
    | openRead p k =>
      refine hj _ fun e => ?_
      unfold Job.opened at e
      obtain ⟨l', h3, h4⟩ := Res.bind_eq_ok.mp e
      have : l' = l := by
        split at h4
        · cases h4
        · split at h4 <;> cases h4
          rfl
        · cases h4; rfl
      exact h p k rfl (by rw [← this]; exact h3) rfl
    | openWrite p k => exact hj _
    | openMake p k => simp only [Job.step]; split <;> exact hj _
    | openTrunc p k => simp only [Job.step]; split <;> exact hj _
    | openExcl p k => simp only [Job.step]; split <;> exact hj _
    | read l' size got pos k =>
      simp only [Job.step]
      split
      · split
        · exact hj
        · exact hj.2 _
      · split
        · exact hj.2 _
        · exact hj
      · exact hj.2 _
    | append l' bs k => simp only [Job.step]; split <;> exact hj
    | put l' bs k => simp only [Job.step]; split <;> exact hj
    | unlink p k => simp only [Job.step]; split <;> exact hj _

/-- A system call of a client that does not hold the file goes the same way on both disks. -/
theorem veiled_step {l cwd : Path} {fs fs' : FS} (h : Veiled l fs fs') {j : Job} (hj : fs.get l = fs'.get l ∨ Sightless l j) (n : Nat) (e : Option String) :
    Veiled l (j.stepUnder cwd fs n e).1 (j.stepUnder cwd fs' n e).1 ∧ (j.stepUnder cwd fs n e).2 = (j.stepUnder cwd fs' n e).2 := by
  cases e with
  | some e => cases j <;> exact ⟨h, rfl⟩
  | none =>
    have write : ∀ (q : Path) (f : Bytes → Bytes) (k : Job),
        Veiled l (match fs.get q with | some (.file d) => (fs.set q (.file (f d)), k) | _ => (fs, k)).1
          (match fs'.get q with | some (.file d) => (fs'.set q (.file (f d)), k) | _ => (fs', k)).1 ∧
        (match fs.get q with | some (.file d) => (fs.set q (.file (f d)), k) | _ => (fs, k)).2 =
          (match fs'.get q with | some (.file d) => (fs'.set q (.file (f d)), k) | _ => (fs', k)).2 := by
      intro q f k
      rcases h q with e | ⟨rfl, d, d', e, e'⟩
      · rw [e]
        cases hg : fs'.get q with
        | none => exact ⟨h, rfl⟩
        | some x => cases x with
          | dir => exact ⟨h, rfl⟩
          | file d => exact ⟨veiled_set h (FS.ne_root (fs := fs') (by rw [hg]; simp)) _, rfl⟩
      · rw [e, e']
        exact ⟨veiled_write h (FS.ne_root (fs := fs) (by rw [e]; simp)) _ _, rfl⟩
    simp only [Job.stepUnder]
    cases j with
    | done r => exact ⟨h, rfl⟩
    | stat p k =>
      refine ⟨h, ?_⟩
      simp only [Job.step, FS.statOk, veiled_lookup h, veiled_isSome h]
    | openRead p k => exact ⟨h, by simp only [Job.step, veiled_opened h]⟩
    | openWrite p k => exact ⟨h, by simp only [Job.step, veiled_opened h]⟩
    | openMake p k =>
      simp only [Job.step]
      rcases veiled_openCreate h cwd p with ⟨r, d, d', hr, e, e'⟩ | ⟨x, e, e'⟩ | ⟨e, e'⟩ | ⟨e, e'⟩ <;> rw [e, e']
      · dsimp only
        rw [veiled_isNone h]
        refine ⟨?_, rfl⟩
        split
        · exact veiled_set h hr _
        · exact h
      all_goals exact ⟨h, rfl⟩
    | openTrunc p k =>
      simp only [Job.step]
      rcases veiled_openCreate h cwd p with ⟨r, d, d', hr, e, e'⟩ | ⟨x, e, e'⟩ | ⟨e, e'⟩ | ⟨e, e'⟩ <;> rw [e, e']
      · exact ⟨veiled_set h hr _, rfl⟩
      all_goals exact ⟨h, rfl⟩
    | openExcl p k =>
      simp only [Job.step]
      rcases veiled_createExcl h cwd p with ⟨r, hr, e, e'⟩ | ⟨e, e'⟩
      · rw [e, e']
        exact ⟨veiled_set h hr _, rfl⟩
      · split
        · next x => exact absurd x (e _)
        · exact ⟨h, rfl⟩
    | read l' size got pos k =>
      have : fs.get l' = fs'.get l' := by
        rcases h l' with e | ⟨rfl, -⟩
        · exact e
        · exact hj.resolve_right fun h => h.1 rfl
      simp only [Job.step, this]
      split
      · split <;> exact ⟨h, rfl⟩
      · split <;> exact ⟨h, rfl⟩
      · exact ⟨h, rfl⟩
    | append l' bs k => exact write l' (· ++ bs) k
    | put l' bs k => exact write l' (writeAt · 0 bs) k
    | unlink p k =>
      simp only [Job.step]
      rcases veiled_remove h cwd p with ⟨r, hr, e, e'⟩ | ⟨x, e, e'⟩ | ⟨e, e'⟩ | ⟨e, e'⟩ <;> rw [e, e']
      · exact ⟨veiled_del h hr, rfl⟩
      all_goals exact ⟨h, rfl⟩

theorem veiled_root {fs fs' : FS} : Veiled [] fs fs' ↔ ∀ q, fs.get q = fs'.get q := by
  constructor
  · intro h q
    rcases h q with e | ⟨rfl, d, d', e, -⟩
    · exact e
    · simp [FS.get] at e
  · exact fun h q => .inl (h q)

theorem veiled_same {l : Path} {fs fs' : FS} (h : Veiled l fs fs') (e : fs.get l = fs'.get l) : ∀ q, fs.get q = fs'.get q := by
  intro q
  rcases h q with e' | ⟨rfl, -⟩
  · exact e'
  · exact e

/-- A file that is the same on both disks stays so. -/
theorem same_step {l cwd : Path} {fs fs' : FS} (h : Veiled l fs fs') (e : fs.get l = fs'.get l) (j : Job) (n : Nat) (r : Option String) :
    (j.stepUnder cwd fs n r).1.get l = (j.stepUnder cwd fs' n r).1.get l :=
  veiled_root.mp (veiled_step (l := []) (veiled_root.mpr (veiled_same h e)) (.inl rfl) n r).1 l

/-- The account may not read the file, or may not search its directory. -/
def Spec.Unread (perm : Path → Perm) (l : Path) (a : Account) : Prop := (perm l).mayRead a = false ∨ (perm l.dropLast).maySearch a = false

theorem unread_denied {l cwd : Path} {fs : FS} {perm : Path → Perm} {a : Account} {d : Bytes} (ht : Tree fs) (hf : fs.get l = some (.file d))
    (h : Unread perm l a) {p : Bytes} {k : Res Path → Job} (hl : fs.lookup cwd p = .ok l) : (Job.openRead p k).denied a cwd fs perm ≠ none := by
  intro e
  obtain ⟨e2, e1⟩ := denied_none (p := p) rfl e
  rcases h with h | h
  · have : Job.opened fs cwd p false = .ok l := by
      unfold Job.opened
      rw [hl, Res.ok_bind, hf]
    simp only [Job.deniedThere, this, h, Job.denyUnless] at e2
    cases e2
  · have := ((lookup_ends ht hl).resolve_left (by rw [hf]; simp)).2.2 a perm h
    rw [e1] at this
    cases this

theorem stepUnder_some {db : DB} {c : Codec} {s : Site} {p : Nat} {j : Job} (h : (s.clients p).now = some j) (n : Nat) (e : Option String) :
    (∃ r, j = .done r ∧ s.stepUnder db c p n e = (s.setClient s.fs p ⟨(s.clients p).todo, none⟩, [.ret p r])) ∨
    (∀ r, j ≠ .done r) ∧ s.stepUnder db c p n e =
      (s.setClient (j.stepUnder db.cwd s.fs n e).1 p ⟨(s.clients p).todo, some (j.stepUnder db.cwd s.fs n e).2⟩, []) := by
  unfold Site.stepUnder
  split
  · next e => rw [e] at h; cases h
  · next e => rw [e] at h; cases h
  · next todo r e =>
    rw [e] at h
    cases h
    exact .inl ⟨r, rfl, by rw [e]⟩
  · next todo j' hd e =>
    rw [e] at h
    cases h
    exact .inr ⟨fun r er => hd r er, by rw [e]⟩

/-- What holds between two runs that differ in the content of the file. `ps`: the clients that move. -/
structure Spec.Hushed (l : Path) (who : Nat → Account) (ps : List Nat) (perm : Path → Perm) (s s' : Site) : Prop where
  same : s.clients = s'.clients
  veiled : Veiled l s.fs s'.fs
  tree : Tree s.fs
  hidden : s.fs.get l ≠ s'.fs.get l → ∀ p ∈ ps, Unread perm l (who p) ∧ ∀ j, (s.clients p).now = some j → Sightless l j

theorem hushed_step {db : DB} {c : Codec} {who : Nat → Account} {l : Path} {ps : List Nat} {perm : Path → Perm} {s s' : Site}
    (h : Hushed l who ps perm s s') {p : Nat} (hp : p ∈ ps) (n : Nat) :
    Hushed l who ps (s.stepAs db c who perm p n).2.1 (s.stepAs db c who perm p n).1 (s'.stepAs db c who perm p n).1 ∧
    (s.stepAs db c who perm p n).2 = (s'.stepAs db c who perm p n).2 := by
  have ht := tree_stepAs (db := db) (c := c) (who := who) (perm := perm) h.tree p n
  unfold Site.stepAs at ht ⊢
  rw [← h.same]
  cases hn : (s.clients p).now with
  | none =>
    rw [hn] at ht
    dsimp only at ht ⊢
    unfold Site.stepUnder at ht ⊢
    rw [← h.same]
    split
    · exact ⟨h, rfl⟩
    · next op rest e =>
      rw [e] at ht
      refine ⟨⟨?_, h.veiled, h.tree, fun hd q hq => ⟨(h.hidden hd q hq).1, fun j hj => ?_⟩⟩, rfl⟩
      · simp only [Site.setClient, h.same]
      · simp only [Site.setClient] at hj
        split at hj
        · cases hj; exact sightless_start ..
        · exact (h.hidden hd q hq).2 j hj
    · next e => rw [e] at hn; cases hn
    · next e => rw [e] at hn; cases hn
  | some j =>
    rw [hn] at ht
    dsimp only at ht ⊢
    rw [← veiled_denied h.veiled]
    rcases stepUnder_some (db := db) (c := c) hn n (j.denied (who p) db.cwd s.fs perm) with ⟨r, rfl, e⟩ | ⟨hr, e⟩
    · rcases stepUnder_some (db := db) (c := c) (by rw [← h.same]; exact hn) n ((Job.done r).denied (who p) db.cwd s.fs perm) (s := s') with ⟨r', er, e'⟩ | ⟨hr', -⟩
      · cases er
        have pa : ∀ fs : FS, Job.permAfter (who p) fs fs perm (.done r) = perm := by
          intro fs; funext q
          unfold Job.permAfter
          rw [if_neg (by cases fs.get q <;> simp)]
        rw [e, e']
        dsimp only [Site.setClient]
        rw [pa, pa]
        refine ⟨⟨?_, h.veiled, h.tree, fun hd q hq => ⟨(h.hidden hd q hq).1, fun j hj => ?_⟩⟩, rfl⟩
        · simp only [h.same]
        · simp only at hj
          split at hj
          · cases hj
          · exact (h.hidden hd q hq).2 j hj
      · exact absurd rfl (hr' r)
    · rcases stepUnder_some (db := db) (c := c) (by rw [← h.same]; exact hn) n (j.denied (who p) db.cwd s.fs perm) (s := s') with ⟨r', er, -⟩ | ⟨-, e'⟩
      · exact absurd er (hr r')
      · rw [e] at ht ⊢
        rw [e']
        have hj : s.fs.get l = s'.fs.get l ∨ Sightless l j := by
          by_cases hd : s.fs.get l = s'.fs.get l
          · exact .inl hd
          · exact .inr ((h.hidden hd p hp).2 j hn)
        obtain ⟨v1, v2⟩ := veiled_step h.veiled hj (cwd := db.cwd) n (j.denied (who p) db.cwd s.fs perm)
        have pa : j.permAfter (who p) s.fs (j.stepUnder db.cwd s.fs n (j.denied (who p) db.cwd s.fs perm)).1 perm =
            j.permAfter (who p) s'.fs (j.stepUnder db.cwd s'.fs n (j.denied (who p) db.cwd s.fs perm)).1 perm := by
          funext q
          unfold Job.permAfter
          rw [veiled_isNone h.veiled, veiled_isSome v1]
        dsimp only [Site.setClient] at ht ⊢
        refine ⟨⟨?_, v1, ht, fun hd q hq => ?_⟩, ?_⟩
        · simp only [v2, h.same]
        · have hd0 : s.fs.get l ≠ s'.fs.get l := fun e => hd (same_step h.veiled e j n _)
          obtain ⟨-, d, d', hf, hf'⟩ := (h.veiled l).resolve_left hd0
          have h0 : l ≠ [] := FS.ne_root (fs := s.fs) (by rw [hf]; simp)
          have hdir := tree_up h.tree (by rw [hf]; rfl) h0
          refine ⟨?_, fun j' hj' => ?_⟩
          · unfold Unread Job.permAfter
            rw [if_neg (by rw [hf]; simp), if_neg (by rw [hdir]; simp)]
            exact (h.hidden hd0 q hq).1
          · simp only at hj'
            split at hj'
            · cases hj'
              exact sightless_step (hj.resolve_left hd0) n _ fun p' k ej hl => by
                subst ej
                exact unread_denied h.tree hf (h.hidden hd0 p hp).1 hl
            · exact (h.hidden hd0 q hq).2 j' hj'
        · rw [pa]

/-- **C161.** Clients whose accounts may not read a file, or may not search its directory, get the same answers, one after the other, whatever is in the
file: nothing of it is told, not even its length, by any calls in any order, and nothing of it gets elsewhere on the disk. -/
theorem C161_silent (db : DB) (c : Codec) (who : Nat → Account) (fs : FS) (clients : Nat → Client) (perm : Path → Perm) (l : Path) (d d' : Bytes)
    (ht : Tree fs) (hf : fs.get l = some (.file d)) (sched : List (Nat × Nat))
    (h : ∀ x ∈ sched, (clients x.1).now = none ∧ ((perm l).mayRead (who x.1) = false ∨ (perm l.dropLast).maySearch (who x.1) = false)) :
    (Site.runAs db c who ⟨fs.set l (.file d'), clients⟩ perm sched).2.2 = (Site.runAs db c who ⟨fs, clients⟩ perm sched).2.2 ∧
    ∀ q, q ≠ l → (Site.runAs db c who ⟨fs.set l (.file d'), clients⟩ perm sched).1.fs.get q = (Site.runAs db c who ⟨fs, clients⟩ perm sched).1.fs.get q := by
  have h0 : l ≠ [] := FS.ne_root (fs := fs) (by rw [hf]; simp)
  have key : ∀ (sched : List (Nat × Nat)) (ps : List Nat) (perm : Path → Perm) (s s' : Site), (∀ x ∈ sched, x.1 ∈ ps) → Hushed l who ps perm s s' →
      (Site.runAs db c who s' perm sched).2.2 = (Site.runAs db c who s perm sched).2.2 ∧
      Veiled l (Site.runAs db c who s perm sched).1.fs (Site.runAs db c who s' perm sched).1.fs := by
    intro sched ps
    induction sched with
    | nil => exact fun _ _ _ _ h => ⟨rfl, h.veiled⟩
    | cons x sched ih =>
      obtain ⟨p, n⟩ := x
      intro perm s s' hs hh
      obtain ⟨h1, h2⟩ := hushed_step (db := db) (c := c) (p := p) hh (hs (p, n) (by simp)) n
      obtain ⟨i1, i2⟩ := ih _ _ _ (fun x hx => hs x (by simp [hx])) h1
      rw [h2] at i1 i2
      have h3 : (s.stepAs db c who perm p n).2.2 = (s'.stepAs db c who perm p n).2.2 := congrArg Prod.snd h2
      have h4 : (s.stepAs db c who perm p n).2.1 = (s'.stepAs db c who perm p n).2.1 := congrArg Prod.fst h2
      constructor
      · show (s'.stepAs db c who perm p n).2.2 ++ (Site.runAs db c who (s'.stepAs db c who perm p n).1 (s'.stepAs db c who perm p n).2.1 sched).2.2 =
          (s.stepAs db c who perm p n).2.2 ++ (Site.runAs db c who (s.stepAs db c who perm p n).1 (s.stepAs db c who perm p n).2.1 sched).2.2
        rw [h3, h4, i1]
      · show Veiled l (Site.runAs db c who (s.stepAs db c who perm p n).1 (s.stepAs db c who perm p n).2.1 sched).1.fs
          (Site.runAs db c who (s'.stepAs db c who perm p n).1 (s'.stepAs db c who perm p n).2.1 sched).1.fs
        rw [h4]
        exact i2
  obtain ⟨k1, k2⟩ := key sched (sched.map (·.1)) perm ⟨fs, clients⟩ ⟨fs.set l (.file d'), clients⟩ (fun x hx => List.mem_map_of_mem hx) ⟨rfl, by
    intro q
    by_cases e : q = l
    · exact .inr ⟨e, d, d', by rw [e, hf], by rw [e, get_set_self h0]⟩
    · exact .inl (by rw [FS.get_set h0, if_neg e]), ht, fun _ p hp => by
    obtain ⟨x, hx, rfl⟩ := List.mem_map.mp hp
    exact ⟨(h x hx).2, fun j hj => by rw [(h x hx).1] at hj; cases hj⟩⟩
  refine ⟨k1, fun q hq => ?_⟩
  rcases k2 q with e | ⟨e, -⟩
  · exact e.symm
  · exact absurd e hq

/-- The list of boards is for its owner alone, the rest is for all. -/
def boardsPerm : Path → Perm := fun q => if q = [ascii "bbs", ascii ".BRD"] then ⟨99, 99, 0o600⟩ else ⟨99, 99, 0o755⟩

/-- The hypotheses of `C161_silent` hold: account 1000 asks for the list of boards, which is for account 99 alone. -/
example : Tree accountsFS ∧ accountsFS.get [ascii "bbs", ascii ".BRD"] = some (.file (ascii "boards")) ∧
    ((fresh accountsFS fun _ => [.readBoards]).clients 1).now = none ∧ (boardsPerm [ascii "bbs", ascii ".BRD"]).mayRead (intruders 1) = false ∧
    (boardsPerm [ascii "bbs", ascii ".BRD"]).mayRead ⟨99, 99, [], 0⟩ = true :=
  ⟨accounts_tree, by decide +kernel, rfl, by decide +kernel, by decide +kernel⟩

end Verif
