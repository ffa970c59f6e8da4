import Verif.Props.Links
/-!
# C154, continued: links anywhere
-/

namespace Verif
open Spec

/-- Two names of one place, to which equally many links are followed. -/
def Spec.SameLead (d : LinkDisk) (db db' : DB) : Prop :=
  0 ∉ db.home ∧ 0 ∉ db'.home ∧ ∃ x, d.follow true 40 (pathStart db.cwd (db.home ++ [slash])) (splitByte slash db.home) = .ok x ∧
    d.follow true 40 (pathStart db'.cwd (db'.home ++ [slash])) (splitByte slash db'.home) = .ok x

theorem lookup_pair {d : LinkDisk} {db db' : DB} (h : SameLead d db db') (last : Bool) (rest : Bytes) :
    d.lookup db.cwd last (db.home ++ slash :: rest) = d.lookup db'.cwd last (db'.home ++ slash :: rest) := by
  obtain ⟨h0, h0', x, e, e'⟩ := h
  have hs : (0 : UInt8) ≠ slash := by decide
  have key : ∀ db : DB, 0 ∉ db.home → d.follow true 40 (pathStart db.cwd (db.home ++ [slash])) (splitByte slash db.home) = .ok x →
      d.lookup db.cwd last (db.home ++ slash :: rest) =
        if 0 ∈ rest then .err "invalid argument" else d.follow last x.2 x.1 (splitByte slash rest) >>= fun y => .ok y.1 := by
    intro db h0 e
    unfold LinkDisk.lookup
    rw [if_neg (by simp)]
    by_cases hz : 0 ∈ rest
    · rw [if_pos (by simp [hz]), if_pos hz]
    · rw [if_neg (by simp [h0, hz, hs]), if_neg hz, pathStart_slash, splitByte_sep, follow_append _ _ _ _ _ _ (splitByte_ne_nil _ _), e]
      rfl
  rw [key db h0 e, key db' h0' e']

/-- Two jobs that differ in the name of the home directory only. -/
inductive Spec.Paired (h h' : Bytes) : Job → Job → Prop
  | done (r : Res Answer) : Paired h h' (.done r) (.done r)
  | stat {rest : Bytes} {k k' : Bool → Job} : (∀ b, Paired h h' (k b) (k' b)) → Paired h h' (.stat (h ++ slash :: rest) k) (.stat (h' ++ slash :: rest) k')
  | openRead {rest : Bytes} {k k' : Res Path → Job} : (∀ b, Paired h h' (k b) (k' b)) → Paired h h' (.openRead (h ++ slash :: rest) k) (.openRead (h' ++ slash :: rest) k')
  | openWrite {rest : Bytes} {k k' : Res Path → Job} : (∀ b, Paired h h' (k b) (k' b)) → Paired h h' (.openWrite (h ++ slash :: rest) k) (.openWrite (h' ++ slash :: rest) k')
  | openMake {rest : Bytes} {k k' : Res Path → Job} : (∀ b, Paired h h' (k b) (k' b)) → Paired h h' (.openMake (h ++ slash :: rest) k) (.openMake (h' ++ slash :: rest) k')
  | openTrunc {rest : Bytes} {k k' : Res Path → Job} : (∀ b, Paired h h' (k b) (k' b)) → Paired h h' (.openTrunc (h ++ slash :: rest) k) (.openTrunc (h' ++ slash :: rest) k')
  | openExcl {rest : Bytes} {k k' : Bool → Job} : (∀ b, Paired h h' (k b) (k' b)) → Paired h h' (.openExcl (h ++ slash :: rest) k) (.openExcl (h' ++ slash :: rest) k')
  | read {q : Path} {size : Nat} {got : List Bytes} {pos : Nat} {k k' : Res (List Bytes) → Job} : (∀ b, Paired h h' (k b) (k' b)) →
      Paired h h' (.read q size got pos k) (.read q size got pos k')
  | append {q : Path} {bs : Bytes} {k k' : Job} : Paired h h' k k' → Paired h h' (.append q bs k) (.append q bs k')
  | put {q : Path} {bs : Bytes} {k k' : Job} : Paired h h' k k' → Paired h h' (.put q bs k) (.put q bs k')
  | unlink {rest : Bytes} {k k' : Res Unit → Job} : (∀ b, Paired h h' (k b) (k' b)) → Paired h h' (.unlink (h ++ slash :: rest) k) (.unlink (h' ++ slash :: rest) k')

/-- The same place, the same effect. -/
theorem stepAt_paired {h h' : Bytes} {j j' : Job} (ha : Paired h h' j j') (hp : j.path? ≠ none) (fs : FS) (r : Res Path) :
    (j.stepAt fs r).1 = (j'.stepAt fs r).1 ∧ Paired h h' (j.stepAt fs r).2 (j'.stepAt fs r).2 := by
  cases ha with
  | done r => exact absurd rfl hp
  | read _ => exact absurd rfl hp
  | append _ => exact absurd rfl hp
  | put _ => exact absurd rfl hp
  | stat hk => exact ⟨rfl, hk _⟩
  | openRead hk => exact ⟨rfl, hk _⟩
  | openWrite hk => exact ⟨rfl, hk _⟩
  | openMake hk =>
    simp only [Job.stepAt]
    rcases r with q | e | _ | _
    · rcases hg : fs.get q with _ | (x | _) <;> simp only [hg] <;> exact ⟨trivial, hk _⟩
    all_goals exact ⟨rfl, hk _⟩
  | openTrunc hk =>
    simp only [Job.stepAt]
    rcases r with q | e | _ | _
    · rcases hg : fs.get q with _ | (x | _) <;> simp only [hg] <;> exact ⟨trivial, hk _⟩
    all_goals exact ⟨rfl, hk _⟩
  | openExcl hk =>
    simp only [Job.stepAt]
    rcases r with q | e | _ | _
    · rcases hg : fs.get q with _ | (x | _) <;> simp only [hg] <;> exact ⟨trivial, hk _⟩
    all_goals exact ⟨rfl, hk _⟩
  | unlink hk =>
    simp only [Job.stepAt]
    rcases r with q | e | _ | _
    · rcases hg : fs.get q with _ | (x | _) <;> simp only [hg]
      · exact ⟨trivial, hk _⟩
      · exact ⟨trivial, hk _⟩
      · by_cases h1 : q = []
        · simp only [if_pos h1]
          exact ⟨trivial, hk _⟩
        · by_cases h2 : fs.hasChild q = true
          · simp only [if_neg h1, if_pos h2]
            exact ⟨trivial, hk _⟩
          · simp only [if_neg h1, if_neg h2]
            exact ⟨trivial, hk _⟩
    all_goals exact ⟨rfl, hk _⟩

theorem paired_step {d : LinkDisk} {db db' : DB} (hl : SameLead d db db') {j j' : Job} (h : Paired db.home db'.home j j') (n : Nat) :
    (d.step db.cwd n j).1 = (d.step db'.cwd n j').1 ∧ Paired db.home db'.home (d.step db.cwd n j).2 (d.step db'.cwd n j').2 := by
  have on : ∀ {j j' : Job} (r : Res Path), Paired db.home db'.home j j' → j.path? ≠ none →
      (⟨(j.stepAt d.fs r).1, d.links⟩ : LinkDisk) = ⟨(j'.stepAt d.fs r).1, d.links⟩ ∧ Paired db.home db'.home (j.stepAt d.fs r).2 (j'.stepAt d.fs r).2 := by
    intro j j' r hj hp
    obtain ⟨a, b⟩ := stepAt_paired hj hp d.fs r
    exact ⟨by rw [a], b⟩
  have hj := h
  cases h with
  | done r => exact ⟨rfl, .done r⟩
  | stat hk => simp only [LinkDisk.step, lookup_pair hl]; exact on _ hj (by simp [Job.path?])
  | openRead hk => simp only [LinkDisk.step, lookup_pair hl]; exact on _ hj (by simp [Job.path?])
  | openWrite hk => simp only [LinkDisk.step, lookup_pair hl]; exact on _ hj (by simp [Job.path?])
  | openMake hk => simp only [LinkDisk.step, lookup_pair hl]; exact on _ hj (by simp [Job.path?])
  | openTrunc hk => simp only [LinkDisk.step, lookup_pair hl]; exact on _ hj (by simp [Job.path?])
  | openExcl hk =>
    simp only [LinkDisk.step, lookup_pair hl]
    split
    · split
      · exact ⟨rfl, hk _⟩
      · exact on _ hj (by simp [Job.path?])
    · exact on _ hj (by simp [Job.path?])
  | unlink hk =>
    simp only [LinkDisk.step, lookup_pair hl]
    split
    · split
      · exact ⟨rfl, hk _⟩
      · split
        · exact ⟨rfl, hk _⟩
        · exact on _ hj (by simp [Job.path?])
    · exact on _ hj (by simp [Job.path?])
  | read hk =>
    simp only [LinkDisk.step, Job.step]
    split
    · split
      · exact ⟨rfl, .read hk⟩
      · exact ⟨rfl, hk _⟩
    · split
      · exact ⟨rfl, hk _⟩
      · exact ⟨rfl, .read hk⟩
    · exact ⟨rfl, hk _⟩
  | append hk =>
    simp only [LinkDisk.step, Job.step]
    split <;> exact ⟨rfl, hk⟩
  | put hk =>
    simp only [LinkDisk.step, Job.step]
    split <;> exact ⟨rfl, hk⟩

/-! ## Calls -/

theorem paired_orStop {α : Type} {h h' : Bytes} {k k' : α → Job} (r : Res α) (hk : ∀ a, Paired h h' (k a) (k' a)) :
    Paired h h' (Job.orStop k r) (Job.orStop k' r) := by
  cases r with
  | ok a => exact hk a
  | err e => exact .done _
  | panic => exact .done _
  | diverge => exact .done _

theorem paired_path {h h' : Bytes} {k k' : Bytes → Job} (o : Obj)
    (hk : ∀ rest, Paired h h' (k (h ++ slash :: rest)) (k' (h' ++ slash :: rest))) :
    Paired h h' (Job.orStop k (o.path h)) (Job.orStop k' (o.path h')) := by
  rcases path_both h h' o with ⟨rest, e, e', _⟩ | ⟨e, e'⟩
  · rw [e, e']; exact hk rest
  · rw [e, e']; exact .done _

theorem paired_readList {α : Type} {h h' rest : Bytes} {size : Nat} {parse : Bytes → Res α} {k k' : List α → Job}
    (hk : ∀ l, Paired h h' (k l) (k' l)) :
    Paired h h' (Job.readList (h ++ slash :: rest) size parse k) (Job.readList (h' ++ slash :: rest) size parse k') :=
  .openRead fun r => paired_orStop r fun _ => .read fun g => paired_orStop g fun _ => paired_orStop _ fun l => hk l

theorem paired_readWhole {h h' rest : Bytes} {k k' : Bytes → Job} (hk : ∀ x, Paired h h' (k x) (k' x)) :
    Paired h h' (Job.readWhole (h ++ slash :: rest) k) (Job.readWhole (h' ++ slash :: rest) k') :=
  .openRead fun r => paired_orStop r fun _ => .read fun g => paired_orStop g fun _ => hk _

theorem paired_tryNames (db db' : DB) {b o d t : Bytes} {draw : Nat → Int × Fin 4096} :
    ∀ fuel k, Paired db.home db'.home (Job.tryNames db b o d t draw fuel k) (Job.tryNames db' b o d t draw fuel k)
  | 0, _ => .done _
  | fuel + 1, k => by
    unfold Job.tryNames
    refine paired_path (.article b (DB.articleName (draw k).1 (draw k).2)) fun rest => .openExcl fun r => ?_
    cases r with
    | true => exact .done _
    | false => exact paired_tryNames db db' fuel (k + 1)

/-- A call under two names. -/
theorem paired_start (db db' : DB) (c : Codec) (op : Call) : Paired db.home db'.home (Job.start db c op) (Job.start db' c op) := by
  cases op with
  | readUsers =>
    rw [Job.start, Job.start]
    exact paired_path (h := db.home) (h' := db'.home) .passwd fun _ => paired_readList fun _ => .done _
  | readFavourites u =>
    refine paired_path (.favourite u) fun rest => .stat fun r => ?_
    cases r with
    | false => exact .done _
    | true =>
      exact paired_readWhole fun _ => paired_orStop _ fun _ => paired_path .boardList fun _ => paired_readList fun _ => paired_orStop _ fun _ => .done _
  | readBoards =>
    rw [Job.start, Job.start]
    exact paired_path (h := db.home) (h' := db'.home) .boardList fun _ => paired_readList fun _ => .done _
  | listArticles b =>
    refine paired_path (.articleIndex b) fun rest => .openRead fun r => ?_
    cases r with
    | ok l => exact .read fun g => paired_orStop g fun _ => paired_orStop _ fun _ => .done _
    | err e => exact .done _
    | panic => exact .done _
    | diverge => exact .done _
  | listTreasure b ds => exact paired_path (.treasureIndex b ds) fun _ => paired_readList fun _ => .done _
  | readArticle b f => exact paired_path (.article b f) fun _ => paired_readWhole fun _ => .done _
  | readTreasure b ds f => exact paired_path (.treasure b ds f) fun _ => paired_readWhole fun _ => .done _
  | addBoard r =>
    rw [Job.start, Job.start]
    exact paired_path (h := db.home) (h' := db'.home) .boardList fun _ => .openMake fun r => paired_orStop r fun _ => .append (.done _)
  | createArticle b o d t draw fuel => exact paired_tryNames db db' fuel 0
  | addRecord b r => exact paired_path (.articleIndex b) fun _ => .openMake fun r => paired_orStop r fun _ => .append (.done _)
  | writeArticle b f x => exact paired_path (.article b f) fun _ => .openMake fun r => paired_orStop r fun _ => .put (.done _)
  | appendArticle b f x => exact paired_path (.article b f) fun _ => .openWrite fun r => paired_orStop r fun _ => .append (.done _)
  | readDraft u d =>
    refine paired_path (.draft u d) fun rest => .stat fun r => ?_
    cases r with
    | false => exact .done _
    | true => exact paired_readWhole fun _ => .done _
  | deleteDraft u d => exact paired_path (.draft u d) fun _ => .unlink fun r => paired_orStop r fun _ => .done _
  | writeDraft u d x => exact paired_path (.draft u d) fun _ => .openTrunc fun r => paired_orStop r fun _ => .put (.done _)

/-- Clients that have come to the same point under two names each. -/
def Spec.PairedClient (h h' : Bytes) (x x' : Client) : Prop :=
  x.todo = x'.todo ∧ ((x.now = none ∧ x'.now = none) ∨ ∃ j j', x.now = some j ∧ x'.now = some j' ∧ Paired h h' j j')

structure Spec.PairedSite (dbs dbs' : Nat → DB) (s s' : LinkSite) : Prop where
  disk : s.disk = s'.disk
  clients : ∀ p, PairedClient (dbs p).home (dbs' p).home (s.clients p) (s'.clients p)

theorem pairedSite_step {dbs dbs' : Nat → DB} {s s' : LinkSite} (h : PairedSite dbs dbs' s s') (c : Codec) (p n : Nat)
    (hl : SameLead s.disk (dbs p) (dbs' p)) :
    PairedSite dbs dbs' (s.step dbs c p n).1 (s'.step dbs' c p n).1 ∧ (s.step dbs c p n).2 = (s'.step dbs' c p n).2 := by
  obtain ⟨htodo, hnow⟩ := h.clients p
  have hset : ∀ (d : LinkDisk) (x x' : Client), PairedClient (dbs p).home (dbs' p).home x x' →
      PairedSite dbs dbs' (s.setClient d p x) (s'.setClient d p x') := by
    intro d x x' hx
    refine ⟨rfl, fun q => ?_⟩
    simp only [LinkSite.setClient]
    split
    · next e => subst e; exact hx
    · exact h.clients q
  cases hx : s.clients p with
  | mk todo now =>
  cases hx' : s'.clients p with
  | mk todo' now' =>
  rw [hx, hx'] at htodo hnow
  simp only at htodo hnow
  subst htodo
  rcases hnow with ⟨rfl, rfl⟩ | ⟨j, j', rfl, rfl, hj⟩
  · unfold LinkSite.step
    rw [hx, hx']
    cases todo with
    | nil => exact ⟨h, rfl⟩
    | cons op rest =>
      have := hset s'.disk ⟨rest, some (Job.start (dbs p) c op)⟩ ⟨rest, some (Job.start (dbs' p) c op)⟩ ⟨rfl, .inr ⟨_, _, rfl, rfl, paired_start _ _ c op⟩⟩
      rw [← h.disk] at this ⊢
      exact ⟨this, rfl⟩
  · have hdone : (∃ r, j = .done r ∧ j' = .done r) ∨ (∀ r, j ≠ .done r) ∧ ∀ r, j' ≠ .done r := by
      cases hj with
      | done r => exact .inl ⟨r, rfl, rfl⟩
      | _ => exact .inr ⟨by simp, by simp⟩
    rcases hdone with ⟨r, rfl, rfl⟩ | ⟨hn, hn'⟩
    · have hs := hset s'.disk ⟨todo, none⟩ ⟨todo, none⟩ ⟨rfl, .inl ⟨rfl, rfl⟩⟩
      unfold LinkSite.step
      rw [hx, hx']
      cases todo <;> (simp only [h.disk]; exact ⟨hs, trivial⟩)
    · obtain ⟨e1, e2⟩ := paired_step hl hj n
      rw [linkStep_busy hx hn, linkStep_busy hx' hn', ← h.disk, ← e1]
      exact ⟨hset _ _ _ ⟨rfl, .inr ⟨_, _, rfl, rfl, e2⟩⟩, rfl⟩

/-- Links anywhere, any calls: as long as the two names of each client lead to one place by equally many links, they do the same. -/
theorem C154_same_lead (dbs dbs' : Nat → DB) (c : Codec) : ∀ (sched : List (Nat × Nat)) (s s' : LinkSite), PairedSite dbs dbs' s s' →
    (∀ pre, pre <+: sched → ∀ p, SameLead (s.run dbs c pre).1.disk (dbs p) (dbs' p)) →
    (s.run dbs c sched).2 = (s'.run dbs' c sched).2 ∧ (s.run dbs c sched).1.disk = (s'.run dbs' c sched).1.disk
  | [], s, s', h, _ => ⟨rfl, h.disk⟩
  | (p, n) :: sched, s, s', h, hl => by
    obtain ⟨a, b⟩ := pairedSite_step h c p n (hl [] (List.nil_prefix) p)
    have := C154_same_lead dbs dbs' c sched _ _ a fun pre hp q => hl ((p, n) :: pre) (List.cons_prefix_cons.mpr ⟨rfl, hp⟩) q
    simp only [LinkSite.run, b]
    exact ⟨by rw [this.1], this.2⟩

/-- Clients at rest: whatever the links, names that lead to one place by equally many links share one database while they do. -/
theorem C154_shared (dbs dbs' : Nat → DB) (c : Codec) (sched : List (Nat × Nat)) (s : LinkSite) (hi : ∀ p, (s.clients p).now = none)
    (hl : ∀ pre, pre <+: sched → ∀ p, SameLead (s.run dbs c pre).1.disk (dbs p) (dbs' p)) :
    (s.run dbs c sched).2 = (s.run dbs' c sched).2 ∧ (s.run dbs c sched).1.disk = (s.run dbs' c sched).1.disk :=
  C154_same_lead dbs dbs' c sched s s ⟨rfl, fun p => ⟨rfl, .inl ⟨hi p, hi p⟩⟩⟩ hl

/-! ## Without removals -/

/-- The job removes nothing. -/
def Spec.Removeless : Job → Prop
  | .done _ => True
  | .stat _ k => ∀ b, Removeless (k b)
  | .openRead _ k => ∀ r, Removeless (k r)
  | .openWrite _ k => ∀ r, Removeless (k r)
  | .openMake _ k => ∀ r, Removeless (k r)
  | .openTrunc _ k => ∀ r, Removeless (k r)
  | .openExcl _ k => ∀ b, Removeless (k b)
  | .read _ _ _ _ k => ∀ r, Removeless (k r)
  | .append _ _ k => Removeless k
  | .put _ _ k => Removeless k
  | .unlink _ _ => False

theorem removeless_orStop {α : Type} {k : α → Job} (r : Res α) (hk : ∀ a, Removeless (k a)) : Removeless (Job.orStop k r) := by
  cases r with
  | ok a => exact hk a
  | err e => trivial
  | panic => trivial
  | diverge => trivial

theorem removeless_readList {α : Type} {p : Bytes} {size : Nat} {parse : Bytes → Res α} {k : List α → Job} (hk : ∀ l, Removeless (k l)) :
    Removeless (Job.readList p size parse k) :=
  fun r => removeless_orStop r fun _ g => removeless_orStop g fun _ => removeless_orStop _ hk

theorem removeless_readWhole {p : Bytes} {k : Bytes → Job} (hk : ∀ x, Removeless (k x)) : Removeless (Job.readWhole p k) :=
  fun r => removeless_orStop r fun _ g => removeless_orStop g fun _ => hk _

theorem removeless_tryNames (db : DB) (b o d t : Bytes) (draw : Nat → Int × Fin 4096) : ∀ fuel k, Removeless (Job.tryNames db b o d t draw fuel k)
  | 0, _ => trivial
  | fuel + 1, k => by
    unfold Job.tryNames
    refine removeless_orStop _ fun p r => ?_
    cases r with
    | true => exact trivial
    | false => exact removeless_tryNames db b o d t draw fuel (k + 1)

theorem removeless_start (db : DB) (c : Codec) {op : Call} (h : ∀ u d, op ≠ .deleteDraft u d) : Removeless (Job.start db c op) := by
  cases op with
  | deleteDraft u d => exact absurd rfl (h u d)
  | createArticle b o d t draw fuel => exact removeless_tryNames db b o d t draw fuel 0
  | readUsers =>
    rw [Job.start]
    exact removeless_orStop _ fun _ => removeless_readList fun _ => trivial
  | readBoards =>
    rw [Job.start]
    exact removeless_orStop _ fun _ => removeless_readList fun _ => trivial
  | listTreasure b ds => exact removeless_orStop _ fun _ => removeless_readList fun _ => trivial
  | readArticle b f => exact removeless_orStop _ fun _ => removeless_readWhole fun _ => trivial
  | readTreasure b ds f => exact removeless_orStop _ fun _ => removeless_readWhole fun _ => trivial
  | readFavourites u =>
    refine removeless_orStop _ fun _ r => ?_
    cases r with
    | false => exact trivial
    | true => exact removeless_readWhole fun _ => removeless_orStop _ fun _ => removeless_orStop _ fun _ => removeless_readList fun _ => removeless_orStop _ fun _ => trivial
  | listArticles b =>
    refine removeless_orStop _ fun _ r => ?_
    cases r with
    | ok l => exact fun g => removeless_orStop g fun _ => removeless_orStop _ fun _ => trivial
    | err e => exact trivial
    | panic => exact trivial
    | diverge => exact trivial
  | readDraft u d =>
    refine removeless_orStop _ fun _ r => ?_
    cases r with
    | false => exact trivial
    | true => exact removeless_readWhole fun _ => trivial
  | addBoard r =>
    rw [Job.start]
    exact removeless_orStop _ fun _ r => removeless_orStop r fun _ => trivial
  | addRecord b r => exact removeless_orStop _ fun _ r => removeless_orStop r fun _ => trivial
  | writeArticle b f x => exact removeless_orStop _ fun _ r => removeless_orStop r fun _ => trivial
  | appendArticle b f x => exact removeless_orStop _ fun _ r => removeless_orStop r fun _ => trivial
  | writeDraft u d x => exact removeless_orStop _ fun _ r => removeless_orStop r fun _ => trivial

/-- Links and directories stay. -/
def Spec.Stays (d d' : LinkDisk) : Prop := d'.links = d.links ∧ ∀ q, d.fs.get q = some .dir → d'.fs.get q = some .dir

theorem stays_refl (d : LinkDisk) : Stays d d := ⟨rfl, fun _ h => h⟩

theorem stays_set {d : LinkDisk} {p : Path} {x : Bytes} (h : d.fs.get p ≠ some .dir) : Stays d ⟨d.fs.set p (.file x), d.links⟩ :=
  ⟨rfl, (keeps_set (l := []) h List.nil_prefix).1⟩

theorem removeless_step {d : LinkDisk} {j : Job} (h : Removeless j) (cwd : Path) (n : Nat) : Stays d (d.step cwd n j).1 ∧ Removeless (d.step cwd n j).2 := by
  cases j with
  | done r => exact ⟨stays_refl d, trivial⟩
  | stat p k => exact ⟨stays_refl d, h _⟩
  | openRead p k => exact ⟨stays_refl d, h _⟩
  | openWrite p k => exact ⟨stays_refl d, h _⟩
  | openMake p k =>
    simp only [LinkDisk.step, Job.stepAt]
    rcases d.lookup cwd true p with q | e | _ | _
    · rcases hg : d.fs.get q with _ | (x | _) <;> simp only [hg]
      · exact ⟨stays_set (by rw [hg]; simp), h _⟩
      · exact ⟨stays_refl d, h _⟩
      · exact ⟨stays_refl d, h _⟩
    all_goals exact ⟨stays_refl d, h _⟩
  | openTrunc p k =>
    simp only [LinkDisk.step, Job.stepAt]
    rcases d.lookup cwd true p with q | e | _ | _
    · rcases hg : d.fs.get q with _ | (x | _) <;> simp only [hg]
      · exact ⟨stays_set (by rw [hg]; simp), h _⟩
      · exact ⟨stays_set (by rw [hg]; simp), h _⟩
      · exact ⟨stays_refl d, h _⟩
    all_goals exact ⟨stays_refl d, h _⟩
  | openExcl p k =>
    simp only [LinkDisk.step, Job.stepAt]
    rcases d.lookup cwd false p with q | e | _ | _
    · simp only
      split
      · exact ⟨stays_refl d, h _⟩
      · rcases hg : d.fs.get q with _ | x <;> simp only [hg]
        · exact ⟨stays_set (by rw [hg]; simp), h _⟩
        · exact ⟨stays_refl d, h _⟩
    all_goals exact ⟨stays_refl d, h _⟩
  | unlink p k => exact h.elim
  | read q size got pos k =>
    simp only [LinkDisk.step, Job.step]
    split
    · split
      · exact ⟨stays_refl d, h⟩
      · exact ⟨stays_refl d, h _⟩
    · split
      · exact ⟨stays_refl d, h _⟩
      · exact ⟨stays_refl d, h⟩
    · exact ⟨stays_refl d, h _⟩
  | append q bs k =>
    simp only [LinkDisk.step, Job.step]
    split
    · next e => exact ⟨stays_set (by rw [e]; simp), h⟩
    · exact ⟨stays_refl d, h⟩
  | put q bs k =>
    simp only [LinkDisk.step, Job.step]
    split
    · next e => exact ⟨stays_set (by rw [e]; simp), h⟩
    · exact ⟨stays_refl d, h⟩

/-- No client removes anything, now or later. -/
structure Spec.NoRemovals (s : LinkSite) : Prop where
  todo : ∀ p, ∀ op ∈ (s.clients p).todo, ∀ u d, op ≠ .deleteDraft u d
  now : ∀ p j, (s.clients p).now = some j → Removeless j

theorem noRemovals_step {s : LinkSite} (h : NoRemovals s) (dbs : Nat → DB) (c : Codec) (p n : Nat) :
    NoRemovals (s.step dbs c p n).1 ∧ Stays s.disk (s.step dbs c p n).1.disk := by
  have hset : ∀ (d : LinkDisk) (x : Client), (∀ op ∈ x.todo, ∀ u e, op ≠ .deleteDraft u e) → (∀ j, x.now = some j → Removeless j) →
      NoRemovals (s.setClient d p x) := by
    intro d x h1 h2
    refine ⟨fun q => ?_, fun q => ?_⟩ <;> simp only [LinkSite.setClient] <;> split
    · exact h1
    · exact h.todo q
    · exact h2
    · exact h.now q
  have ht := h.todo p
  have hn := h.now p
  cases hx : s.clients p with
  | mk todo now =>
  rw [hx] at ht hn
  cases now with
  | none =>
    unfold LinkSite.step
    rw [hx]
    cases todo with
    | nil => exact ⟨h, stays_refl _⟩
    | cons op rest =>
      exact ⟨hset _ _ (fun o ho => ht o (List.mem_cons_of_mem _ ho)) (fun j hj => by cases hj; exact removeless_start (dbs p) c (ht op (List.mem_cons_self ..))),
        stays_refl _⟩
  | some j =>
    by_cases hd : ∃ r, j = .done r
    · obtain ⟨r, rfl⟩ := hd
      have hs := hset s.disk ⟨todo, none⟩ ht (fun j hj => by cases hj)
      unfold LinkSite.step
      rw [hx]
      cases todo <;> exact ⟨hs, stays_refl _⟩
    · rw [linkStep_busy hx (fun r e => hd ⟨r, e⟩)]
      obtain ⟨a, b⟩ := removeless_step (d := s.disk) (hn j rfl) (dbs p).cwd n
      exact ⟨hset _ _ ht (fun j hj => by cases hj; exact b), a⟩

theorem stays_run (dbs : Nat → DB) (c : Codec) : ∀ (sched : List (Nat × Nat)) (s : LinkSite), NoRemovals s → Stays s.disk (s.run dbs c sched).1.disk
  | [], s, _ => stays_refl _
  | (p, n) :: sched, s, h => by
    obtain ⟨a, b⟩ := noRemovals_step h dbs c p n
    have := stays_run dbs c sched _ a
    exact ⟨this.1.trans b.1, fun q hq => this.2 q (b.2 q hq)⟩

/-- Links anywhere, also in the home directory: clients that remove nothing share one database under all names that lead to one place by equally
many links. -/
theorem C154_links_anywhere (dbs dbs' : Nat → DB) (c : Codec) (sched : List (Nat × Nat)) (s : LinkSite) (hi : ∀ p, (s.clients p).now = none)
    (hr : ∀ p, ∀ op ∈ (s.clients p).todo, ∀ u d, op ≠ .deleteDraft u d) (hl : ∀ p, SameLead s.disk (dbs p) (dbs' p)) :
    (s.run dbs c sched).2 = (s.run dbs' c sched).2 ∧ (s.run dbs c sched).1.disk = (s.run dbs' c sched).1.disk := by
  refine C154_shared dbs dbs' c sched s hi fun pre _ p => ?_
  obtain ⟨a, b, x, e, e'⟩ := hl p
  obtain ⟨h1, h2⟩ := stays_run dbs c pre s ⟨hr, fun p j hj => by rw [hi p] at hj; cases hj⟩
  exact ⟨a, b, x, follow_kept h1 h2 _ _ _ _ _ e, follow_kept h1 h2 _ _ _ _ _ e'⟩

/-! ## The last component -/

/-- A file made for an article is made where there was neither a file nor a link: nothing is written through a link. -/
theorem C154_create (cwd : Path) (d : LinkDisk) (n : Nat) (p : Bytes) (k : Bool → Job) :
    d.step cwd n (.openExcl p k) = (d, k false) ∨
      ∃ q, d.links.lookup q = none ∧ d.fs.get q = none ∧ d.step cwd n (.openExcl p k) = (⟨d.fs.set q (.file []), d.links⟩, k true) := by
  simp only [LinkDisk.step, Job.stepAt]
  split
  · next q _ =>
    split
    · exact .inl rfl
    · next hq =>
      cases hg : d.fs.get q with
      | none => exact .inr ⟨q, by cases hx : d.links.lookup q <;> simp [hx] at hq ⊢, hg, rfl⟩
      | some x => exact .inl rfl
  · next r hr => 
    cases hx : d.lookup cwd false p with
    | ok q => exact absurd hx (hr q)
    | err e => exact .inl rfl
    | panic => exact .inl rfl
    | diverge => exact .inl rfl

/-- Removing takes away one thing at most: a link, and then what it names stays; or what is at a place that is no link. -/
theorem C154_remove (cwd : Path) (d : LinkDisk) (n : Nat) (p : Bytes) (k : Res Unit → Job) :
    (d.step cwd n (.unlink p k)).1 = d ∨ ∃ q, d.lookup cwd false p = .ok q ∧ (d.step cwd n (.unlink p k)).2 = k (.ok ()) ∧
      (((d.links.lookup q).isSome ∧ (d.step cwd n (.unlink p k)).1 = ⟨d.fs, d.links.filter (fun e => e.1 ≠ q)⟩) ∨
        (d.links.lookup q = none ∧ q ≠ [] ∧ (d.step cwd n (.unlink p k)).1 = ⟨d.fs.del q, d.links⟩ ∧
          (d.fs.get q = some .dir → ∀ e ∈ d.links, ¬ (q <+: e.1 ∧ e.1 ≠ q)))) := by
  simp only [LinkDisk.step]
  cases hx : d.lookup cwd false p with
  | err e => exact .inl rfl
  | panic => exact .inl rfl
  | diverge => exact .inl rfl
  | ok q =>
    simp only
    by_cases hq : (d.links.lookup q).isSome = true
    · rw [if_pos hq]
      exact .inr ⟨q, rfl, rfl, .inl ⟨hq, rfl⟩⟩
    · have hn : d.links.lookup q = none := by cases hx : d.links.lookup q <;> simp [hx] at hq ⊢
      rw [if_neg hq]
      by_cases hb : d.fs.get q = some .dir ∧ d.linkBelow q = true
      · rw [if_pos hb]
        exact .inl rfl
      · rw [if_neg hb]
        simp only [Job.stepAt]
        cases hg : d.fs.get q with
        | none => exact .inl rfl
        | some y =>
          cases y with
          | file z => exact .inr ⟨q, rfl, rfl, .inr ⟨hn, (fun e => by rw [e] at hg; cases hg), rfl, (fun h => by rw [hg] at h; cases h)⟩⟩
          | dir =>
            by_cases h1 : q = []
            · simp only [if_pos h1]
              exact .inl trivial
            · by_cases h2 : d.fs.hasChild q = true
              · simp only [if_neg h1, if_pos h2]
                exact .inl trivial
              · simp only [if_neg h1, if_neg h2]
                refine .inr ⟨q, rfl, trivial, .inr ⟨hn, h1, rfl, fun _ e he hp => hb ⟨hg, ?_⟩⟩⟩
                obtain ⟨⟨t, ht⟩, hne⟩ := hp
                unfold LinkDisk.linkBelow
                rw [List.any_eq_true]
                refine ⟨e, he, ?_⟩
                have htne : t ≠ [] := fun h => hne (by rw [← ht, h, List.append_nil])
                have : 0 < t.length := List.length_pos_iff.mpr htne
                simp only [Bool.and_eq_true, decide_eq_true_eq, ← ht, List.length_append, List.take_left, and_true]
                omega

/-- A link that names itself leads nowhere. -/
theorem C154_loop (d : LinkDisk) (a : Bytes) (ha : Component a) (h0 : 0 ∉ a) (hr : d.links.lookup [] = none) (hl : d.links.lookup [a] = some (slash :: a))
    (cwd : Path) (last : Bool) (rest : Bytes) (hz : 0 ∉ rest) :
    d.lookup cwd last (slash :: a ++ slash :: rest) = .err "too many levels of symbolic links" := by
  have hsp : splitByte slash (slash :: a) = [[], a] := by
    have := splitByte_sep (b := slash) [] a
    rw [List.nil_append] at this
    rw [this, splitByte_of_not_mem ha.noSlash]
    rfl
  have loop : ∀ (left : Nat) (cs : List Bytes), cs ≠ [] → d.follow last left [] ([] :: a :: cs) = .err "too many levels of symbolic links" := by
    intro left
    induction left with
    | zero =>
      intro cs hc
      rw [follow_cons]
      have e1 : d.met last [] [] (a :: cs) = none := by
        unfold LinkDisk.met
        rw [if_neg (by simp)]
        exact hr
      have e2 : d.met last [] a cs = some (slash :: a) := by
        unfold LinkDisk.met
        rw [if_neg (by simp [hc])]
        have : Path.enter [] a = [a] := by
          unfold Path.enter
          rw [if_neg (fun h => h.elim ha.nonempty ha.notDot), if_neg (show ¬ a = [dot, dot] from ha.notDotDot)]
          rfl
        rw [this]
        exact hl
      rw [e1]
      show d.follow last 0 [] (a :: cs) = _
      rw [follow_cons, e2]
      rfl
    | succ left ih =>
      intro cs hc
      rw [follow_cons]
      have e1 : d.met last [] [] (a :: cs) = none := by
        unfold LinkDisk.met
        rw [if_neg (by simp)]
        exact hr
      have e2 : d.met last [] a cs = some (slash :: a) := by
        unfold LinkDisk.met
        rw [if_neg (by simp [hc])]
        have : Path.enter [] a = [a] := by
          unfold Path.enter
          rw [if_neg (fun h => h.elim ha.nonempty ha.notDot), if_neg (show ¬ a = [dot, dot] from ha.notDotDot)]
          rfl
        rw [this]
        exact hl
      rw [e1]
      show d.follow last (left + 1) [] (a :: cs) = _
      rw [follow_cons, e2]
      show d.follow last left [] (splitByte slash (slash :: a) ++ cs) = _
      rw [hsp]
      exact ih cs hc
  unfold LinkDisk.lookup
  rw [if_neg (by simp), if_neg (by
    have : (0 : UInt8) ≠ slash := by decide
    simp [h0, hz, this])]
  have : splitByte slash (slash :: a ++ slash :: rest) = [] :: a :: splitByte slash rest := by
    rw [splitByte_sep, hsp]
    rfl
  rw [this]
  show (d.follow last 40 [] _ >>= _) = _
  rw [loop 40 _ (splitByte_ne_nil _ _)]
  rfl

/-! ## The limit -/

/-- `LinkDisk.follow`, with its errors, as a search that may be computed. -/
def Spec.followR (d : LinkDisk) (last : Bool) : Nat → Nat → Path → List Bytes → Option (Res (Path × Nat))
  | 0, _, _, _ => none
  | _ + 1, left, cur, [] => some (.ok (cur, left))
  | fuel + 1, left, cur, c :: cs => match d.fs.get cur with
    | none => some (.err "no such file or directory")
    | some (.file _) => some (.err "not a directory")
    | some .dir => match d.met last cur c cs with
      | none => followR d last fuel left (cur.enter c) cs
      | some t => match left with
        | 0 => some (.err "too many levels of symbolic links")
        | left + 1 => followR d last fuel left (pathStart cur t) (splitByte slash t ++ cs)

theorem followR_eq (d : LinkDisk) (last : Bool) (x : Res (Path × Nat)) : ∀ (fuel left : Nat) (cur : Path) (cs : List Bytes),
    followR d last fuel left cur cs = some x → d.follow last left cur cs = x := by
  intro fuel
  induction fuel with
  | zero => intro left cur cs h; cases h
  | succ fuel ih =>
    intro left cur cs h
    cases cs with
    | nil => rw [follow_nil]; exact Option.some.inj h
    | cons c cs =>
      rw [follow_cons]
      rw [followR] at h
      split at h
      · next hg => rw [hg]; exact Option.some.inj h
      · next hg => rw [hg]; exact Option.some.inj h
      · next hg =>
        rw [hg]
        simp only
        split at h
        · next hm => rw [hm]; exact ih _ _ _ h
        · next hm =>
          rw [hm]
          simp only
          split at h
          · exact Option.some.inj h
          · exact ih _ _ _ h

namespace LinkExample

/-- Article `a` of board `b` is the first of 40 links; the last of them is a link to `/x`. -/
def chain : LinkDisk :=
  let place (s : Bytes) : Path := [ascii "h", ascii "boards", ascii "b", ascii "b", s]
  ⟨disk.fs, (place (ascii "a"), [160]) :: (place [198], ascii "/x") :: (List.range 38).map (fun i => (place [UInt8.ofNat (160 + i)], [UInt8.ofNat (161 + i)])) ++ disk.links⟩

def reader : Nat → Client := fun _ => ⟨[.readArticle (ascii "b") (ascii "a")], none⟩

end LinkExample

/-- Whatever names the clients have for one home directory, they share one database, wherever there are links. -/
def Spec.SharedUnderAllNames : Prop :=
  ∀ (dbs dbs' : Nat → DB) (l : Path) (c : Codec) (s : LinkSite) (sched : List (Nat × Nat)), HomeNamed dbs l s → HomeNamed dbs' l s →
    (s.run dbs c sched).2 = (s.run dbs' c sched).2

/-- That equally many links are followed is needed: forty may be followed, and an article behind forty links is found by the plain name of the home
directory only. -/
theorem C154_limit_refuted : ¬ Spec.SharedUnderAllNames := by
  intro h
  have hlead : ∀ home : Bytes, 0 ∉ home → (∃ left, followR LinkExample.chain true 9 40 (pathStart [] (home ++ [slash])) (splitByte slash home) = some (.ok ([ascii "h"], left))) →
      HomeNamed (fun _ => ⟨home, []⟩) [ascii "h"] ⟨LinkExample.chain, LinkExample.reader⟩ := by
    intro home h0 ⟨left, hf⟩
    refine ⟨fun _ => ⟨h0, left, followR_eq _ _ _ _ _ _ _ hf⟩, LinkExample.real, LinkExample.drafts LinkExample.chain.links, fun _ => rfl, fun p op hop => ?_⟩
    rw [List.mem_singleton.mp hop]
    refine ⟨fun o ho => ?_, fun _ _ h => by cases h⟩
    cases ho
    intro s hs
    simp only [Obj.names, List.mem_cons, List.not_mem_nil, or_false] at hs
    rcases hs with rfl | rfl <;> (unfold NoUp; decide)
  have hk := h _ _ _ asciiCodec _ [(0, 0), (0, 0), (0, 0)] (hlead (ascii "/h") (by decide) ⟨40, by decide +kernel⟩) (hlead (ascii "/l") (by decide) ⟨39, by decide +kernel⟩)
  have h1 : LinkExample.chain.lookup [] true (ascii "/h/boards/b/b/a") = .ok [ascii "x"] := by
    unfold LinkDisk.lookup
    rw [if_neg (by decide), if_neg (by decide), followR_eq _ _ (.ok ([ascii "x"], 0)) 100 _ _ _ (by decide +kernel)]
    rfl
  have h2 : LinkExample.chain.lookup [] true (ascii "/l/boards/b/b/a") = .err "too many levels of symbolic links" := by
    unfold LinkDisk.lookup
    rw [if_neg (by decide), if_neg (by decide), followR_eq _ _ (.err "too many levels of symbolic links") 100 _ _ _ (by decide +kernel)]
    rfl
  have e1 : Job.start ⟨ascii "/h", []⟩ asciiCodec (.readArticle (ascii "b") (ascii "a")) =
      .openRead (ascii "/h/boards/b/b/a") (Job.orStop fun l => .read l 0 [] 0 (Job.orStop fun got => .done (.ok (.bytes got.flatten)))) := by rfl
  have e2 : Job.start ⟨ascii "/l", []⟩ asciiCodec (.readArticle (ascii "b") (ascii "a")) =
      .openRead (ascii "/l/boards/b/b/a") (Job.orStop fun l => .read l 0 [] 0 (Job.orStop fun got => .done (.ok (.bytes got.flatten)))) := by rfl
  simp [LinkSite.run, LinkSite.step, LinkExample.reader, LinkSite.setClient, e1, e2, LinkDisk.step, h1, h2] at hk
  have hlen := congrArg List.length hk
  revert hlen
  decide

/-! ## Examples -/

open LinkExample in
example : (∀ p, (clients p).now = none) ∧ (∀ p, ∀ op ∈ (clients p).todo, ∀ u d, op ≠ .deleteDraft u d) :=
  ⟨fun _ => rfl, fun _ op h u d => by rw [List.mem_singleton.mp h]; simp⟩

open LinkExample in
example : SameLead open_ ⟨ascii "/l", []⟩ ⟨ascii "l/.", []⟩ :=
  ⟨by decide, by decide, ([ascii "h"], 39), followN_eq _ _ _ 9 _ _ _ (by decide), followN_eq _ _ _ 9 _ _ _ (by decide)⟩

example : Component (ascii "l") ∧ (LinkDisk.mk ⟨[]⟩ [([ascii "l"], ascii "/l")]).links.lookup [ascii "l"] = some (slash :: ascii "l") :=
  ⟨⟨by decide, by decide, by decide, by decide⟩, by decide⟩

end Verif
