import Verif.Model.RefusedClients
import Verif.Props.Limits
import Verif.Props.Concurrent
import Verif.Spec.Decent
/-!
# C145: what is in a list when system calls are refused
-/

namespace Verif
open Spec

/-! ## The claim -/

/-- `bs`, if the path is one of `l`. -/
def Spec.ifAt (db : DB) (l : Path) (bs : Bytes) : Res Bytes → Option Bytes
  | .ok p => if resolve db.cwd p = l then some bs else none
  | _ => none

/-- What the call is to add at the end of what is at `l`; nothing if it is no such call. -/
def Spec.addedTo (db : DB) (c : Codec) (l : Path) : Call → Option Bytes
  | .addRecord b r => ifAt db l (r.marshal c) (getBoardArticlesDirectoryPath db.home b)
  | .addBoard r => ifAt db l (r.marshal c) (getBoardPath db.home)
  | .appendArticle b f x => ifAt db l x (getBoardArticleFilePath db.home b f)
  | _ => none

/-- The call writes nothing. -/
def Spec.OnlyReads : Call → Prop
  | .readUsers | .readFavourites _ | .readBoards | .listArticles _ | .listTreasure _ _ | .readArticle _ _ | .readTreasure _ _ _ | .readDraft _ _ => True
  | _ => False

/-- The call leaves what is at `l` alone: it only reads, or works on other paths. -/
def Spec.LeavesAlone (db : DB) (l : Path) (op : Call) : Prop := OnlyReads op ∨ ∀ p, PathOf db p op → resolve db.cwd p ≠ l

/-- The bytes at `l`; none if there is no file. -/
def Spec.bytesAt (fs : FS) (l : Path) : Bytes := match fs.get l with
  | some (.file d) => d
  | _ => []

/-- The calls of client `p` that were answered with success, in order; `cur` is the call it is making at first. -/
def Spec.succeeded (p : Nat) : Option Call → List Event → List Call
  | _, [] => []
  | cur, .call q op :: es => succeeded p (if q = p then some op else cur) es
  | cur, .ret q r :: es => if q = p then (match cur, r with | some op, .ok _ => [op] | _, _ => []) ++ succeeded p none es else succeeded p cur es

/-! ## Jobs that leave a place alone -/

/-- Nothing that the job may come to changes what is at `l`. -/
def Spec.Avoids (cwd : Path) (l : Path) : Job → Prop
  | .done _ => True
  | .stat _ k => ∀ b, Avoids cwd l (k b)
  | .openRead _ k => ∀ r : Res Path, Avoids cwd l (k r)
  | .openWrite p k => ∀ r : Res Path, (∀ l', r = .ok l' → l' = resolve cwd p) → Avoids cwd l (k r)
  | .openMake p k => resolve cwd p ≠ l ∧ ∀ r : Res Path, (∀ l', r = .ok l' → l' = resolve cwd p) → Avoids cwd l (k r)
  | .openTrunc p k => resolve cwd p ≠ l ∧ ∀ r : Res Path, (∀ l', r = .ok l' → l' = resolve cwd p) → Avoids cwd l (k r)
  | .openExcl p k => resolve cwd p ≠ l ∧ ∀ b, Avoids cwd l (k b)
  | .read _ _ _ _ k => ∀ r, Avoids cwd l (k r)
  | .append l' _ k => l' ≠ l ∧ Avoids cwd l k
  | .put l' _ k => l' ≠ l ∧ Avoids cwd l k
  | .unlink p k => resolve cwd p ≠ l ∧ ∀ r, Avoids cwd l (k r)

theorem get_set_ne {fs : FS} {l l' : Path} (h : l' ≠ l) (n : Node) : (fs.set l' n).get l = fs.get l := by
  unfold FS.get FS.set
  split
  · rfl
  · rw [FS.lookup_cons_if, if_neg (Ne.symm h)]

theorem get_del_ne {fs : FS} {l l' : Path} (h : l' ≠ l) : (fs.del l').get l = fs.get l := by
  unfold FS.get FS.del
  split
  · rfl
  · rw [FS.lookup_filter, if_neg (Ne.symm h)]

theorem openCreate_resolve {fs : FS} {cwd l : Path} {p d : Bytes} (h : fs.openCreate cwd p = .ok (l, d)) : l = resolve cwd p := by
  unfold FS.openCreate at h
  obtain ⟨l', h1, h2⟩ := Res.bind_eq_ok.mp h
  have : l' = l := by split at h2 <;> cases h2 <;> rfl
  exact this ▸ FS.lookup_eq h1

theorem opened_place {fs : FS} {cwd l : Path} {p : Bytes} {w : Bool} (h : Job.opened fs cwd p w = .ok l) : l = resolve cwd p := by
  unfold Job.opened at h
  obtain ⟨l', h1, h2⟩ := Res.bind_eq_ok.mp h
  have : l' = l := by
    split at h2
    · cases h2
    · split at h2 <;> cases h2
      rfl
    · cases h2; rfl
  exact this ▸ FS.lookup_eq h1

theorem avoids_step {cwd l : Path} {j : Job} (h : Avoids cwd l j) (fs : FS) (n : Nat) (e : Option String) :
    (j.stepUnder cwd fs n e).1.get l = fs.get l ∧ Avoids cwd l (j.stepUnder cwd fs n e).2 := by
  cases e with
  | some e =>
    cases j with
    | done r => exact ⟨rfl, trivial⟩
    | stat p k => exact ⟨rfl, h _⟩
    | openRead p k => exact ⟨rfl, h _⟩
    | openWrite p k => exact ⟨rfl, h _ nofun⟩
    | openMake p k => exact ⟨rfl, h.2 _ nofun⟩
    | openTrunc p k => exact ⟨rfl, h.2 _ nofun⟩
    | openExcl p k => exact ⟨rfl, h.2 _⟩
    | read l' size got pos k =>
      simp only [Job.stepUnder]
      split
      · exact ⟨trivial, h _⟩
      · exact ⟨trivial, h⟩
    | append l' bs k => exact ⟨rfl, trivial⟩
    | put l' bs k => exact ⟨rfl, trivial⟩
    | unlink p k => exact ⟨rfl, h.2 _⟩
  | none =>
    simp only [Job.stepUnder]
    cases j with
    | done r => exact ⟨rfl, trivial⟩
    | stat p k => exact ⟨rfl, h _⟩
    | openRead p k => exact ⟨rfl, h _⟩
    | openWrite p k => exact ⟨rfl, h _ fun _ => opened_place⟩
    | openMake p k =>
      simp only [Job.step]
      split
      · next l' d ho =>
        have hl := openCreate_resolve ho
        refine ⟨?_, h.2 _ fun l'' e => by cases e; exact hl⟩
        simp only
        split
        · exact get_set_ne (hl ▸ h.1) _
        · rfl
      · exact ⟨rfl, h.2 _ nofun⟩
      · exact ⟨rfl, h.2 _ nofun⟩
      · exact ⟨rfl, h.2 _ nofun⟩
    | openTrunc p k =>
      simp only [Job.step]
      split
      · next l' d ho =>
        have hl := openCreate_resolve ho
        exact ⟨get_set_ne (hl ▸ h.1) _, h.2 _ fun l'' e => by cases e; exact hl⟩
      · exact ⟨rfl, h.2 _ nofun⟩
      · exact ⟨rfl, h.2 _ nofun⟩
      · exact ⟨rfl, h.2 _ nofun⟩
    | openExcl p k =>
      simp only [Job.step]
      split
      · next fs' ho =>
        refine ⟨?_, h.2 _⟩
        unfold FS.createExcl at ho
        obtain ⟨l', h1, h2⟩ := Res.bind_eq_ok.mp ho
        split at h2 <;> cases h2
        exact get_set_ne (FS.lookup_eq h1 ▸ h.1) _
      · exact ⟨rfl, h.2 _⟩
    | read l' size got pos k =>
      simp only [Job.step]
      split
      · split
        · exact ⟨rfl, h⟩
        · exact ⟨rfl, h _⟩
      · split
        · exact ⟨rfl, h _⟩
        · exact ⟨rfl, h⟩
      · exact ⟨rfl, h _⟩
    | append l' bs k =>
      simp only [Job.step]
      split
      · exact ⟨get_set_ne h.1 _, h.2⟩
      · exact ⟨rfl, h.2⟩
    | put l' bs k =>
      simp only [Job.step]
      split
      · exact ⟨get_set_ne h.1 _, h.2⟩
      · exact ⟨rfl, h.2⟩
    | unlink p k =>
      simp only [Job.step]
      split
      · next fs' ho =>
        refine ⟨?_, h.2 _⟩
        unfold FS.remove at ho
        obtain ⟨l', h1, h2⟩ := Res.bind_eq_ok.mp ho
        have hn : l' ≠ l := FS.lookup_eq h1 ▸ h.1
        split at h2
        · cases h2
        · cases h2; exact get_del_ne hn
        · split at h2
          · cases h2
          · split at h2
            · cases h2
            · cases h2; exact get_del_ne hn
      · exact ⟨rfl, h.2 _⟩
      · exact ⟨rfl, h.2 _⟩
      · exact ⟨rfl, h.2 _⟩

theorem avoids_orStop {cwd l : Path} {α : Type} {k : α → Job} {r : Res α} (h : ∀ a, r = .ok a → Avoids cwd l (k a)) : Avoids cwd l (Job.orStop k r) := by
  cases r with
  | ok a => exact h a rfl
  | err e => trivial
  | panic => trivial
  | diverge => trivial

theorem avoids_readList {cwd l : Path} {α : Type} {p : Bytes} {size : Nat} {parse : Bytes → Res α} {k : List α → Job} (hk : ∀ x, Avoids cwd l (k x)) :
    Avoids cwd l (Job.readList p size parse k) :=
  fun _ => avoids_orStop fun _ _ _ => avoids_orStop fun _ _ => avoids_orStop fun _ _ => hk _

theorem avoids_readWhole {cwd l : Path} {p : Bytes} {k : Bytes → Job} (hk : ∀ x, Avoids cwd l (k x)) : Avoids cwd l (Job.readWhole p k) :=
  fun _ => avoids_orStop fun _ _ _ => avoids_orStop fun _ _ => hk _

theorem avoids_tryNames {db : DB} {l : Path} {b o d t : Bytes} {draw : Nat → Int × Fin 4096}
    (h : ∀ k p, getBoardArticleFilePath db.home b (DB.articleName (draw k).1 (draw k).2) = .ok p → resolve db.cwd p ≠ l) :
    ∀ fuel k, Avoids db.cwd l (Job.tryNames db b o d t draw fuel k)
  | 0, _ => trivial
  | fuel + 1, k => by
    unfold Job.tryNames
    refine avoids_orStop fun p hp => ⟨h k p hp, fun r => ?_⟩
    cases r with
    | true => trivial
    | false => exact avoids_tryNames h fuel (k + 1)

theorem avoids_start (db : DB) (c : Codec) {l : Path} {op : Call} (h : LeavesAlone db l op) : Avoids db.cwd l (Job.start db c op) := by
  have make : ∀ {x : Res Bytes} {w : Path → Job}, (∀ p, x = .ok p → resolve db.cwd p ≠ l) → (∀ l', l' ≠ l → Avoids db.cwd l (w l')) →
      Avoids db.cwd l (Job.orStop (fun p => .openMake p (Job.orStop w)) x) := fun hx hw =>
    avoids_orStop fun p hp => ⟨hx p hp, fun r hr => avoids_orStop fun l' e => hw l' (hr l' e ▸ hx p hp)⟩
  cases op with
  | readUsers => unfold Job.start; exact avoids_orStop fun p hp => avoids_readList fun _ => trivial
  | readFavourites u =>
    refine avoids_orStop fun p hp r => ?_
    cases r with
    | false => trivial
    | true =>
      exact avoids_readWhole fun _ => avoids_orStop fun _ _ => avoids_orStop fun q hq => avoids_readList fun _ => avoids_orStop fun _ _ => trivial
  | readBoards => unfold Job.start; exact avoids_orStop fun p hp => avoids_readList fun _ => trivial
  | listArticles b =>
    refine avoids_orStop fun p hp r => ?_
    cases r with
    | err e => trivial
    | ok l => exact fun _ => avoids_orStop fun _ _ => avoids_orStop fun _ _ => trivial
    | panic => trivial
    | diverge => trivial
  | listTreasure b ds => exact avoids_orStop fun p hp => avoids_readList fun _ => trivial
  | readArticle b f => exact avoids_orStop fun p hp => avoids_readWhole fun _ => trivial
  | readTreasure b ds f => exact avoids_orStop fun p hp => avoids_readWhole fun _ => trivial
  | readDraft u d =>
    refine avoids_orStop fun p hp r => ?_
    cases r with
    | false => trivial
    | true => exact avoids_readWhole fun _ => trivial
  | addBoard r => unfold Job.start; exact make (fun p hp => h.resolve_left id p hp) fun l' hl => ⟨hl, trivial⟩
  | createArticle b o d t draw fuel => exact avoids_tryNames (fun k p hp => h.resolve_left id p ⟨k, hp⟩) fuel 0
  | addRecord b r => exact make (fun p hp => h.resolve_left id p hp) fun l' hl => ⟨hl, trivial⟩
  | writeArticle b f x => exact make (fun p hp => h.resolve_left id p hp) fun l' hl => ⟨hl, trivial⟩
  | appendArticle b f x =>
    exact avoids_orStop fun p hp r hr => avoids_orStop fun l' e => ⟨hr l' e ▸ h.resolve_left id p hp, trivial⟩
  | deleteDraft u d => exact avoids_orStop fun p hp => ⟨h.resolve_left id p hp, fun _ => avoids_orStop fun _ _ => trivial⟩
  | writeDraft u d x =>
    exact avoids_orStop fun p hp => ⟨h.resolve_left id p hp, fun r hr => avoids_orStop fun l' e => ⟨hr l' e ▸ h.resolve_left id p hp, trivial⟩⟩

/-! ## Jobs that add -/

theorem ifAt_some {db : DB} {l : Path} {bs bs' : Bytes} {r : Res Bytes} (h : ifAt db l bs r = some bs') :
    bs = bs' ∧ ∃ p, r = .ok p ∧ resolve db.cwd p = l := by
  unfold ifAt at h
  split at h
  · split at h
    · next p hp => cases h; exact ⟨rfl, p, rfl, hp⟩
    · cases h
  · cases h

theorem leaves_added {db : DB} {c : Codec} {l : Path} {op : Call} (h : LeavesAlone db l op) : addedTo db c l op = none := by
  have no : ∀ {r : Res Bytes} {bs : Bytes}, (∀ p, r = .ok p → resolve db.cwd p ≠ l) → ifAt db l bs r = none := by
    intro r bs hr
    cases e : ifAt db l bs r with
    | none => rfl
    | some x =>
      obtain ⟨_, p, hp, hl⟩ := ifAt_some e
      exact absurd hl (hr p hp)
  cases op with
  | addRecord b r => exact no fun p hp => h.resolve_left id p hp
  | addBoard r => exact no fun p hp => h.resolve_left id p hp
  | appendArticle b f x => exact no fun p hp => h.resolve_left id p hp
  | _ => rfl

/-- There is a file. -/
def IsFile (fs : FS) (l : Path) : Prop := ∃ d, fs.get l = some (.file d)

/-- The rest of a call that adds `bs`, once the file is open. -/
def adding (bs : Bytes) (l : Path) : Job := .append l bs (.done (.ok .done))

/-- How far a client has got: the call it is making, the job, and what it has added without an answer yet. -/
inductive Phase (db : DB) (c : Codec) (l : Path) (fs : FS) : Option Call → Option Job → List Bytes → Prop where
  | idle : Phase db c l fs none none []
  | other {op : Call} {j : Job} (h : addedTo db c l op = none) (hj : Avoids db.cwd l j) : Phase db c l fs (some op) (some j) []
  | making {op : Call} {bs p : Bytes} (h : addedTo db c l op = some bs) (hp : resolve db.cwd p = l) :
    Phase db c l fs (some op) (some (.openMake p (Job.orStop (adding bs)))) []
  | opening {op : Call} {bs p : Bytes} (h : addedTo db c l op = some bs) (hp : resolve db.cwd p = l) :
    Phase db c l fs (some op) (some (.openWrite p (Job.orStop (adding bs)))) []
  | adding {op : Call} {bs : Bytes} (h : addedTo db c l op = some bs) (hf : IsFile fs l) : Phase db c l fs (some op) (some (adding bs l)) []
  | added {op : Call} {bs : Bytes} (h : addedTo db c l op = some bs) : Phase db c l fs (some op) (some (.done (.ok .done))) [bs]
  | failed {op : Call} {bs : Bytes} {r : Res Answer} (h : addedTo db c l op = some bs) (hr : ∀ a, r ≠ .ok a) :
    Phase db c l fs (some op) (some (.done r)) []

theorem Phase.mono {db : DB} {c : Codec} {l : Path} {fs fs' : FS} {cur : Option Call} {j : Option Job} {bs : List Bytes}
    (h : Phase db c l fs cur j bs) (hf : IsFile fs l → IsFile fs' l) : Phase db c l fs' cur j bs := by
  cases h with
  | idle => exact .idle
  | other h hj => exact .other h hj
  | making h hp => exact .making h hp
  | opening h hp => exact .opening h hp
  | adding h hf' => exact .adding h (hf hf')
  | added h => exact .added h
  | failed h hr => exact .failed h hr

theorem phase_start {db : DB} {c : Codec} {l : Path} (fs : FS) {op : Call} (h : (∃ bs, addedTo db c l op = some bs) ∨ LeavesAlone db l op) :
    Phase db c l fs (some op) (some (Job.start db c op)) [] := by
  rcases h with ⟨bs, h⟩ | h
  · have h0 := h
    cases op with
    | addRecord b r =>
      obtain ⟨rfl, p, hp, hl⟩ := ifAt_some h
      have : Job.start db c (.addRecord b r) = .openMake p (Job.orStop (adding (r.marshal c))) := by
        show Job.orStop _ _ = _
        rw [hp]; rfl
      rw [this]
      exact .making h0 hl
    | addBoard r =>
      unfold addedTo at h
      obtain ⟨rfl, p, hp, hl⟩ := ifAt_some h
      have : Job.start db c (.addBoard r) = .openMake p (Job.orStop (adding (r.marshal c))) := by
        unfold Job.start
        rw [hp]; rfl
      rw [this]
      exact .making h0 hl
    | appendArticle b f x =>
      obtain ⟨rfl, p, hp, hl⟩ := ifAt_some h
      have : Job.start db c (.appendArticle b f x) = .openWrite p (Job.orStop (adding x)) := by
        show Job.orStop _ _ = _
        rw [hp]; rfl
      rw [this]
      exact .opening h0 hl
    | _ => cases h
  · exact .other (leaves_added h) (avoids_start db c h)

theorem bytesAt_eq {fs fs' : FS} {l : Path} (h : fs'.get l = fs.get l) : bytesAt fs' l = bytesAt fs l := by unfold bytesAt; rw [h]

theorem file_ne_root {fs : FS} {l : Path} (h : fs.get l ≠ some .dir) : l ≠ [] := fun e => h (by rw [e]; rfl)

theorem get_set_self {fs : FS} {l : Path} (h : l ≠ []) (n : Node) : (fs.set l n).get l = some n := by rw [FS.get_set h, if_pos rfl]

/-- One system call, granted or refused: `out` is what it adds. -/
theorem phase_step {db : DB} {c : Codec} {l : Path} {fs : FS} {cur : Option Call} {j : Job} {pend : List Bytes} (h : Phase db c l fs cur (some j) pend)
    (hd : ∀ r, j ≠ .done r) (n : Nat) (e : Option String) :
    ∃ out : List Bytes, Phase db c l (j.stepUnder db.cwd fs n e).1 cur (some (j.stepUnder db.cwd fs n e).2) (pend ++ out) ∧
      bytesAt (j.stepUnder db.cwd fs n e).1 l = bytesAt fs l ++ out.flatten ∧ (IsFile fs l → IsFile (j.stepUnder db.cwd fs n e).1 l) := by
  cases h with
  | other h hj =>
    obtain ⟨h1, h2⟩ := avoids_step hj fs n e
    exact ⟨[], .other h h2, by rw [bytesAt_eq h1]; simp, fun ⟨d, hf⟩ => ⟨d, h1.trans hf⟩⟩
  | @making op bs p h hp =>
    cases e with
    | some e => exact ⟨[], .failed h nofun, by simp [Job.stepUnder], id⟩
    | none =>
      simp only [Job.stepUnder, Job.step]
      split
      · next l' d ho =>
        have hl : l' = l := (openCreate_resolve ho).trans hp
        subst hl
        have hn : fs.get l' ≠ some .dir := by
          unfold FS.openCreate at ho
          obtain ⟨l'', h1, h2⟩ := Res.bind_eq_ok.mp ho
          have : l'' = l' := (FS.lookup_eq h1).trans hp
          subst this
          intro e
          rw [e] at h2
          cases h2
        cases hg : fs.get l' with
        | none =>
          simp only [Option.isNone_none, if_true]
          have hs := get_set_self (fs := fs) (file_ne_root hn) (.file [])
          exact ⟨[], .adding h ⟨_, hs⟩, by simp [bytesAt, hs, hg], fun ⟨_, hf⟩ => by cases hg.symm.trans hf⟩
        | some x =>
          cases x with
          | dir => exact absurd hg hn
          | file d' => exact ⟨[], .adding h ⟨_, hg⟩, by simp, id⟩
      · exact ⟨[], .failed h nofun, by simp, id⟩
      · exact ⟨[], .failed h nofun, by simp, id⟩
      · exact ⟨[], .failed h nofun, by simp, id⟩
  | @opening op bs p h hp =>
    cases e with
    | some e => exact ⟨[], .failed h nofun, by simp [Job.stepUnder], id⟩
    | none =>
      simp only [Job.stepUnder, Job.step]
      cases ho : Job.opened fs db.cwd p true with
      | ok l' =>
        have hl : l' = l := (opened_place ho).trans hp
        subst hl
        have : IsFile fs l' := by
          unfold Job.opened at ho
          obtain ⟨l'', h1, h2⟩ := Res.bind_eq_ok.mp ho
          have : l'' = l' := (FS.lookup_eq h1).trans hp
          subst this
          split at h2
          · cases h2
          · cases h2
          · next d hg => exact ⟨d, hg⟩
        exact ⟨[], .adding h this, by simp, id⟩
      | err e => exact ⟨[], .failed h nofun, by simp, id⟩
      | panic => exact ⟨[], .failed h nofun, by simp, id⟩
      | diverge => exact ⟨[], .failed h nofun, by simp, id⟩
  | @adding op bs h hf =>
    cases e with
    | some e => exact ⟨[], .failed h nofun, by simp [Verif.adding, Job.stepUnder], id⟩
    | none =>
      obtain ⟨d, hg⟩ := hf
      have hs := get_set_self (fs := fs) (l := l) (file_ne_root (by rw [hg]; nofun)) (.file (d ++ bs))
      refine ⟨[bs], ?_⟩
      simp only [Verif.adding, Job.stepUnder, Job.step, hg]
      exact ⟨.added h, by simp [bytesAt, hs, hg], fun _ => ⟨_, hs⟩⟩
  | added h => exact absurd rfl (hd _)
  | failed h hr => exact absurd rfl (hd _)

/-! ## Runs -/

/-- Where all the clients are. -/
structure Stands (db : DB) (c : Codec) (l : Path) (s : Site) (cur : Nat → Option Call) (pend : Nat → List Bytes) : Prop where
  phases : ∀ p, Phase db c l s.fs (cur p) (s.clients p).now (pend p)
  todo : ∀ p, ∀ op ∈ (s.clients p).todo, (∃ bs, addedTo db c l op = some bs) ∨ LeavesAlone db l op

/-- A function changed at one place. -/
def putAt {α : Type} (f : Nat → α) (p : Nat) (x : α) : Nat → α := fun q => if q = p then x else f q

theorem putAt_self {α : Type} (f : Nat → α) (p : Nat) (x : α) : putAt f p x p = x := if_pos rfl
theorem putAt_other {α : Type} (f : Nat → α) {p q : Nat} (x : α) (h : q ≠ p) : putAt f p x q = f q := if_neg h

theorem stands_set {db : DB} {c : Codec} {l : Path} {s : Site} {cur : Nat → Option Call} {pend : Nat → List Bytes} (h : Stands db c l s cur pend) {fs : FS}
    (hf : IsFile s.fs l → IsFile fs l) {p : Nat} {x : Client} {u : Option Call} {v : List Bytes} (hx : Phase db c l fs u x.now v)
    (ht : ∀ op ∈ x.todo, op ∈ (s.clients p).todo) : Stands db c l (s.setClient fs p x) (putAt cur p u) (putAt pend p v) := by
  refine ⟨fun q => ?_, fun q op hop => ?_⟩
  · by_cases e : q = p
    · subst e
      rw [putAt_self, putAt_self]
      simpa [Site.setClient] using hx
    · rw [putAt_other _ _ e, putAt_other _ _ e]
      simpa [Site.setClient, e] using (h.phases q).mono hf
  · by_cases e : q = p
    · subst e
      exact h.todo q op (ht op (by simpa [Site.setClient] using hop))
    · exact h.todo q op (by simpa [Site.setClient, e] using hop)

theorem stepUnder_done {db : DB} {c : Codec} {s : Site} {p : Nat} {todo : List Call} {r : Res Answer} (h : s.clients p = ⟨todo, some (.done r)⟩) (n : Nat)
    (e : Option String) : s.stepUnder db c p n e = (s.setClient s.fs p ⟨todo, none⟩, [.ret p r]) := by
  unfold Site.stepUnder
  rw [h]
  cases todo <;> rfl

theorem stepUnder_job {db : DB} {c : Codec} {s : Site} {p : Nat} {todo : List Call} {j : Job} (h : s.clients p = ⟨todo, some j⟩) (hd : ∀ r, j ≠ .done r)
    (n : Nat) (e : Option String) :
    s.stepUnder db c p n e = (s.setClient (j.stepUnder db.cwd s.fs n e).1 p ⟨todo, some (j.stepUnder db.cwd s.fs n e).2⟩, []) := by
  unfold Site.stepUnder
  rw [h]
  cases j with
  | done r => exact absurd rfl (hd r)
  | _ => cases todo <;> rfl

theorem stands_step {db : DB} {c : Codec} {l : Path} {s : Site} {cur : Nat → Option Call} {pend : Nat → List Bytes} (h : Stands db c l s cur pend)
    (p n : Nat) (e : Option String) :
    ∃ (cur' : Nat → Option Call) (pend' : Nat → List Bytes) (order : List (Nat × Bytes)), Stands db c l (s.stepUnder db c p n e).1 cur' pend' ∧
      bytesAt (s.stepUnder db c p n e).1.fs l = bytesAt s.fs l ++ (order.map (·.2)).flatten ∧
      ∀ q, ∃ told : List Bytes,
        (∀ es, (succeeded q (cur q) ((s.stepUnder db c p n e).2 ++ es)).filterMap (addedTo db c l) =
          told ++ (succeeded q (cur' q) es).filterMap (addedTo db c l)) ∧ pend q ++ partOf q order = told ++ pend' q := by
  have hp := h.phases p
  have ht := h.todo p
  rcases hc : s.clients p with ⟨todo, now⟩
  rw [hc] at hp ht
  cases now with
  | none =>
    unfold Site.stepUnder
    rw [hc]
    cases todo with
    | nil => exact ⟨cur, pend, [], h, by simp, fun q => ⟨[], fun es => by simp, by simp [partOf]⟩⟩
    | cons op rest =>
      refine ⟨putAt cur p (some op), putAt pend p [], [], stands_set h id (phase_start s.fs (ht op (by simp))) (by rw [hc]; simp +contextual), by simp [Site.setClient], fun q => ⟨[], fun es => ?_, ?_⟩⟩
      · by_cases e : q = p
        · subst e; simp [succeeded, putAt_self]
        · simp [succeeded, putAt_other _ _ e, Ne.symm e]
      · by_cases e : q = p
        · subst e
          cases hp' : pend q with
          | nil => simp [partOf, putAt_self]
          | cons a t => rw [hp'] at hp; generalize cur q = u at hp; cases hp
        · simp [partOf, putAt_other _ _ e]
  | some j =>
    by_cases hd : ∃ r, j = .done r
    · obtain ⟨r, rfl⟩ := hd
      rw [stepUnder_done hc]
      refine ⟨putAt cur p none, putAt pend p [], [], stands_set h id .idle (by rw [hc]; simp), by simp [Site.setClient], fun q => ?_⟩
      by_cases e : q = p
      · subst e
        refine ⟨pend q, fun es => ?_, by simp [partOf, putAt_self]⟩
        simp only [List.singleton_append, succeeded, if_pos, putAt_self, List.filterMap_append]
        congr 1
        generalize cur q = u at hp
        generalize pend q = v at hp
        cases hp with
        | other h hj => cases r <;> simp [h]
        | added h => simp [h]
        | failed h hr => cases r with
          | ok a => exact absurd rfl (hr a)
          | _ => simp
      · exact ⟨[], fun es => by simp [succeeded, putAt_other _ _ e, Ne.symm e], by simp [partOf, putAt_other _ _ e]⟩
    · have hd' : ∀ r, j ≠ .done r := fun r e => hd ⟨r, e⟩
      obtain ⟨out, h1, h2, h3⟩ := phase_step hp hd' n e
      rw [stepUnder_job hc hd']
      refine ⟨putAt cur p (cur p), putAt pend p (pend p ++ out), out.map fun b => (p, b), stands_set h h3 h1 (by rw [hc]; simp), ?_, fun q => ⟨[], fun es => ?_, ?_⟩⟩
      · simp only [Site.setClient, List.map_map]
        rw [h2]
        simp [Function.comp_def]
      · by_cases e : q = p
        · subst e; simp [putAt_self]
        · simp [putAt_other _ _ e]
      · by_cases e : q = p
        · subst e; simp [putAt_self, partOf, List.filterMap_map, Function.comp_def]
        · simp [putAt_other _ _ e, partOf, List.filterMap_map, Function.comp_def, Ne.symm e]

theorem stands_run {db : DB} {c : Codec} {l : Path} : ∀ (sched : List (Nat × Nat × Option String)) {s : Site} {cur : Nat → Option Call}
    {pend : Nat → List Bytes}, Stands db c l s cur pend →
    ∃ (cur' : Nat → Option Call) (pend' : Nat → List Bytes) (order : List (Nat × Bytes)), Stands db c l (s.runUnder db c sched).1 cur' pend' ∧
      bytesAt (s.runUnder db c sched).1.fs l = bytesAt s.fs l ++ (order.map (·.2)).flatten ∧
      ∀ q, pend q ++ partOf q order = (succeeded q (cur q) (s.runUnder db c sched).2).filterMap (addedTo db c l) ++ pend' q
  | [], s, cur, pend, h => ⟨cur, pend, [], h, by simp [Site.runUnder], fun q => by simp [partOf, Site.runUnder, succeeded]⟩
  | (p, n, e) :: sched, s, cur, pend, h => by
    obtain ⟨cur1, pend1, o1, h1, hb1, ht1⟩ := stands_step h p n e
    obtain ⟨cur2, pend2, o2, h2, hb2, ht2⟩ := stands_run sched h1
    refine ⟨cur2, pend2, o1 ++ o2, h2, ?_, fun q => ?_⟩
    · show bytesAt (((s.stepUnder db c p n e).1.runUnder db c sched).1).fs l = _
      rw [hb2, hb1]
      simp
    · obtain ⟨told, ha, hb⟩ := ht1 q
      have e1 : partOf q (o1 ++ o2) = partOf q o1 ++ partOf q o2 := List.filterMap_append
      show _ = (succeeded q (cur q) ((s.stepUnder db c p n e).2 ++ ((s.stepUnder db c p n e).1.runUnder db c sched).2)).filterMap _ ++ _
      rw [ha, e1, ← List.append_assoc, hb, List.append_assoc, ht2 q, List.append_assoc]

theorem phase_pend {db : DB} {c : Codec} {l : Path} {fs : FS} {cur : Option Call} {j : Option Job} {bs : List Bytes} (h : Phase db c l fs cur j bs) :
    bs.length ≤ 1 ∧ (j = none → bs = []) := by
  cases h <;> simp

/-! ## The theorems -/

/-- **C145.** Any number of clients make any calls at the same time, and the system refuses any of their system calls. If no call but those that add
writes to the file, it holds at every moment what it held, followed by what was added: for every client, in its order, exactly what its calls
answered with success were to add, and perhaps what a call that has no answer yet has added. -/
theorem C145_added (db : DB) (c : Codec) (l : Path) (fs : FS) (todo : Nat → List Call) (sched : List (Nat × Nat × Option String))
    (h : ∀ p, ∀ op ∈ todo p, (∃ bs, addedTo db c l op = some bs) ∨ LeavesAlone db l op) :
    ∃ order : List (Nat × Bytes), bytesAt ((fresh fs todo).runUnder db c sched).1.fs l = bytesAt fs l ++ (order.map (·.2)).flatten ∧
      ∀ p, ∃ open_ : List Bytes, partOf p order =
          (succeeded p none ((fresh fs todo).runUnder db c sched).2).filterMap (addedTo db c l) ++ open_ ∧ open_.length ≤ 1 ∧
        ((((fresh fs todo).runUnder db c sched).1.clients p).now = none → open_ = []) := by
  obtain ⟨cur, pend, order, h1, h2, h3⟩ := stands_run sched (s := fresh fs todo) (cur := fun _ => none) (pend := fun _ => [])
    ⟨fun p => .idle, fun p op hop => h p op hop⟩
  exact ⟨order, h2, fun p => ⟨pend p, h3 p, phase_pend (h1.phases p)⟩⟩

/-- Whole records of `size` bytes are added to a file of whole records. -/
theorem slots_added {size : Nat} (hs : 0 < size) {d : Bytes} (hd : size ∣ d.length) {bss : List Bytes} (hb : Sized size bss) :
    slots size (d ++ bss.flatten) = slots size d ++ bss := by
  obtain ⟨n, hn⟩ := hd
  obtain ⟨rs, h1, rfl, _⟩ := aligned_flatten n d hn
  have h2 : Sized size (rs ++ bss) := fun x hx => (List.mem_append.mp hx).elim (h1 x) (hb x)
  rw [show rs.flatten ++ bss.flatten = (rs ++ bss).flatten by simp, slots_flatten hs h2, slots_flatten hs h1]

theorem succeeded_mem {p : Nat} {op : Call} : ∀ {es : List Event} {cur : Option Call}, op ∈ succeeded p cur es → cur = some op ∨ Event.call p op ∈ es
  | [], _, h => by cases h
  | .call q op' :: es, cur, h => by
    unfold succeeded at h
    rcases succeeded_mem h with h | h
    · split at h
      · next e => cases h; exact .inr (by rw [e]; exact List.mem_cons_self ..)
      · exact .inl h
    · exact .inr (List.mem_cons_of_mem _ h)
  | .ret q r :: es, cur, h => by
    unfold succeeded at h
    split at h
    · rcases List.mem_append.mp h with h | h
      · split at h
        · rw [List.mem_singleton.mp h]; exact .inl rfl
        · cases h
      · rcases succeeded_mem h with h | h
        · cases h
        · exact .inr (List.mem_cons_of_mem _ h)
    · exact (succeeded_mem h).imp_right (List.mem_cons_of_mem _)

theorem called_step {db : DB} {c : Codec} {s : Site} {p n : Nat} {e : Option String} :
    (∀ q op, op ∈ ((s.stepUnder db c p n e).1.clients q).todo → op ∈ (s.clients q).todo) ∧
      ∀ q op, Event.call q op ∈ (s.stepUnder db c p n e).2 → op ∈ (s.clients q).todo := by
  have set : ∀ {fs : FS} {x : Client}, (∀ op ∈ x.todo, op ∈ (s.clients p).todo) →
      ∀ q op, op ∈ ((s.setClient fs p x).clients q).todo → op ∈ (s.clients q).todo := by
    intro fs x hx q op h
    by_cases e : q = p
    · subst e; exact hx op (by simpa [Site.setClient] using h)
    · simpa [Site.setClient, e] using h
  rcases hc : s.clients p with ⟨todo, now⟩
  cases now with
  | none =>
    unfold Site.stepUnder
    rw [hc]
    cases todo with
    | nil => exact ⟨fun _ _ h => h, fun _ _ h => by cases h⟩
    | cons op rest =>
      refine ⟨set (by rw [hc]; exact fun op h => List.mem_cons_of_mem _ h), fun q op' h => ?_⟩
      cases List.mem_singleton.mp h
      rw [hc]
      exact List.mem_cons_self ..
  | some j =>
    by_cases hd : ∃ r, j = .done r
    · obtain ⟨r, rfl⟩ := hd
      rw [stepUnder_done hc]
      exact ⟨set (by rw [hc]; exact fun _ h => h), fun q op h => by cases List.mem_singleton.mp h⟩
    · rw [stepUnder_job hc fun r e => hd ⟨r, e⟩]
      exact ⟨set (by rw [hc]; exact fun _ h => h), fun q op h => by cases h⟩

theorem called_run {db : DB} {c : Codec} {q : Nat} {op : Call} : ∀ (sched : List (Nat × Nat × Option String)) {s : Site},
    Event.call q op ∈ (s.runUnder db c sched).2 → op ∈ (s.clients q).todo
  | [], _, h => by cases h
  | (p, n, e) :: sched, s, h => by
    rcases List.mem_append.mp (show Event.call q op ∈ (s.stepUnder db c p n e).2 ++ ((s.stepUnder db c p n e).1.runUnder db c sched).2 from h) with h | h
    · exact called_step.2 q op h
    · exact called_step.1 q op (called_run sched h)

theorem succeeded_todo {db : DB} {c : Codec} {fs : FS} {todo : Nat → List Call} {sched : List (Nat × Nat × Option String)} {p : Nat} {op : Call}
    (h : op ∈ succeeded p none ((fresh fs todo).runUnder db c sched).2) : op ∈ todo p := by
  rcases succeeded_mem h with h | h
  · cases h
  · exact called_run sched h

theorem filterMap_congr_mem {α β : Type} {f g : α → Option β} {l : List α} (h : ∀ x ∈ l, f x = g x) : l.filterMap f = l.filterMap g := by
  induction l with
  | nil => rfl
  | cons a l ih =>
    rw [List.filterMap_cons, List.filterMap_cons, h a (List.mem_cons_self ..), ih fun x hx => h x (List.mem_cons_of_mem _ hx)]

theorem partOf_map {α β : Type} (f : α → β) (p : Nat) (l : List (Nat × α)) : partOf p (l.map fun x => (x.1, f x.2)) = (partOf p l).map f := by
  induction l with
  | nil => rfl
  | cons a l ih =>
    rw [List.map_cons, partOf_cons, partOf_cons, ih]
    split <;> rfl

/-- The pieces that were added are those of calls. -/
theorem partOf_mem {α : Type} {x : Nat × α} {l : List (Nat × α)} (h : x ∈ l) : x.2 ∈ partOf x.1 l := by
  unfold partOf
  exact List.mem_filterMap.mpr ⟨x, h, if_pos rfl⟩

/-- The record that the call adds to the list of board `b`, as it reads afterwards. -/
def Spec.recordAdded (c : Codec) (b : Bytes) : Call → Option FileHeader
  | .addRecord b' r => if b' = b then some (storedArticle c r) else none
  | _ => none

/-- The board that the call adds, as it reads afterwards. -/
def Spec.boardAdded (c : Codec) : Call → Option BoardHeader
  | .addBoard r => some (storedBoard c r)
  | _ => none

/-- **C145, lists of articles.** When no call is under way, the list of a board reads as it did, followed by the records whose adding was answered
with success, each once, whole, and those of each client in its order. -/
theorem C145_articles (db : DB) (c : Codec) (fs : FS) (b path : Bytes) (todo : Nat → List Call) (sched : List (Nat × Nat × Option String))
    (hp : getBoardArticlesDirectoryPath db.home b = .ok path) (hd : 128 ∣ (bytesAt fs (resolve db.cwd path)).length)
    (h : ∀ p, ∀ op ∈ todo p, (∃ r, op = .addRecord b r) ∨ LeavesAlone db (resolve db.cwd path) op)
    (hidle : ∀ p, (((fresh fs todo).runUnder db c sched).1.clients p).now = none) :
    ∃ order : List (Nat × FileHeader),
      articlesIn c (bytesAt ((fresh fs todo).runUnder db c sched).1.fs (resolve db.cwd path)) =
        articlesIn c (bytesAt fs (resolve db.cwd path)) ++ order.map (·.2) ∧
      ∀ p, partOf p order = (succeeded p none ((fresh fs todo).runUnder db c sched).2).filterMap (recordAdded c b) := by
  have hadd : ∀ r, addedTo db c (resolve db.cwd path) (.addRecord b r) = some (r.marshal c) := by
    intro r
    show ifAt _ _ _ _ = _
    rw [hp]
    exact if_pos rfl
  obtain ⟨order, h1, h2⟩ := C145_added db c (resolve db.cwd path) fs todo sched fun p op hop => (h p op hop).imp_left fun ⟨r, e⟩ => ⟨_, e ▸ hadd r⟩
  have h3 : ∀ p, partOf p order = (succeeded p none ((fresh fs todo).runUnder db c sched).2).filterMap (addedTo db c (resolve db.cwd path)) := by
    intro p
    obtain ⟨u, hu, _, he⟩ := h2 p
    rw [hu, he (hidle p), List.append_nil]
  have hs : Sized 128 (order.map (·.2)) := by
    intro x hx
    obtain ⟨y, hy, rfl⟩ := List.mem_map.mp hx
    have := partOf_mem hy
    rw [h3] at this
    obtain ⟨op, ho, e⟩ := List.mem_filterMap.mp this
    rcases h y.1 op (succeeded_todo ho) with ⟨r, rfl⟩ | hl
    · rw [hadd] at e; rw [← Option.some.inj e]; exact r.marshal_length c
    · rw [leaves_added hl] at e; cases e
  refine ⟨order.map fun x => (x.1, FileHeader.parse c x.2), ?_, fun p => ?_⟩
  · unfold articlesIn
    rw [h1, slots_added (by omega) hd hs]
    simp
  · rw [partOf_map, h3, List.map_filterMap]
    refine filterMap_congr_mem fun op ho => ?_
    rcases h p op (succeeded_todo ho) with ⟨r, rfl⟩ | hl
    · rw [hadd]
      simp [recordAdded, FileHeader.parse_marshal_exact]
    · rw [leaves_added hl]
      cases op with
      | addRecord b' r =>
        by_cases e : b' = b
        · subst e
          have := leaves_added (c := c) hl
          rw [hadd] at this
          cases this
        · simp [recordAdded, e]
      | _ => rfl

/-- **C145, the list of boards.** -/
theorem C145_boards (db : DB) (c : Codec) (fs : FS) (path : Bytes) (todo : Nat → List Call) (sched : List (Nat × Nat × Option String))
    (hp : getBoardPath db.home = .ok path) (hd : 256 ∣ (bytesAt fs (resolve db.cwd path)).length)
    (h : ∀ p, ∀ op ∈ todo p, (∃ r, op = .addBoard r) ∨ LeavesAlone db (resolve db.cwd path) op)
    (hidle : ∀ p, (((fresh fs todo).runUnder db c sched).1.clients p).now = none) :
    ∃ order : List (Nat × BoardHeader),
      boardsIn c (bytesAt ((fresh fs todo).runUnder db c sched).1.fs (resolve db.cwd path)) =
        boardsIn c (bytesAt fs (resolve db.cwd path)) ++ order.map (·.2) ∧
      ∀ p, partOf p order = (succeeded p none ((fresh fs todo).runUnder db c sched).2).filterMap (boardAdded c) := by
  have hadd : ∀ r, addedTo db c (resolve db.cwd path) (.addBoard r) = some (r.marshal c) := by
    intro r
    unfold addedTo
    rw [hp]
    exact if_pos rfl
  obtain ⟨order, h1, h2⟩ := C145_added db c (resolve db.cwd path) fs todo sched fun p op hop => (h p op hop).imp_left fun ⟨r, e⟩ => ⟨_, e ▸ hadd r⟩
  have h3 : ∀ p, partOf p order = (succeeded p none ((fresh fs todo).runUnder db c sched).2).filterMap (addedTo db c (resolve db.cwd path)) := by
    intro p
    obtain ⟨u, hu, _, he⟩ := h2 p
    rw [hu, he (hidle p), List.append_nil]
  have hs : Sized 256 (order.map (·.2)) := by
    intro x hx
    obtain ⟨y, hy, rfl⟩ := List.mem_map.mp hx
    have := partOf_mem hy
    rw [h3] at this
    obtain ⟨op, ho, e⟩ := List.mem_filterMap.mp this
    rcases h y.1 op (succeeded_todo ho) with ⟨r, rfl⟩ | hl
    · rw [hadd] at e; rw [← Option.some.inj e]; exact r.marshal_length c
    · rw [leaves_added hl] at e; cases e
  refine ⟨order.map fun x => (x.1, BoardHeader.parse c x.2), ?_, fun p => ?_⟩
  · unfold boardsIn
    rw [h1, slots_added (by omega) hd hs]
    simp
  · rw [partOf_map, h3, List.map_filterMap]
    refine filterMap_congr_mem fun op ho => ?_
    rcases h p op (succeeded_todo ho) with ⟨r, rfl⟩ | hl
    · rw [hadd]
      simp [boardAdded, BoardHeader.parse_marshal_exact]
    · rw [leaves_added hl]
      cases op with
      | addBoard r =>
        have := leaves_added (c := c) hl
        rw [hadd] at this
        cases this
      | _ => rfl

/-! ## The condition is needed -/

/-- The claim for any calls: what was added and answered with success is at the end of what was there. -/
def Spec.AddedStays : Prop :=
  ∀ (db : DB) (c : Codec) (l : Path) (fs : FS) (todo : Nat → List Call) (sched : List (Nat × Nat × Option String)),
    (∀ p, (((fresh fs todo).runUnder db c sched).1.clients p).now = none) →
    ∃ order : List (Nat × Bytes), bytesAt ((fresh fs todo).runUnder db c sched).1.fs l = bytesAt fs l ++ (order.map (·.2)).flatten ∧
      ∀ p, partOf p order = (succeeded p none ((fresh fs todo).runUnder db c sched).2).filterMap (addedTo db c l)

/-- Client 0 adds to the article that client 1 writes from its start. -/
def overwriters : Nat → List Call
  | 0 => [.appendArticle (ascii "S") (ascii "M.1") (ascii "!")]
  | 1 => [.writeArticle (ascii "S") (ascii "M.1") (ascii "HE")]
  | _ => []

def overwritersRun : Site × List Event :=
  (fresh mixedFS overwriters).runUnder mixedDB mixedCodec [(0, 0, none), (1, 0, none), (0, 0, none), (1, 0, none), (0, 0, none), (1, 0, none), (0, 0, none), (1, 0, none)]

/-- Without the condition on the other calls C145 is false of the code: `WriteBoardArticleFile` writes over what is there. -/
theorem C145_condition_needed : ¬ Spec.AddedStays := by
  intro h
  obtain ⟨order, h1, _⟩ := h mixedDB mixedCodec [ascii "bbs", ascii "boards", ascii "S", ascii "S", ascii "M.1"] mixedFS overwriters
    [(0, 0, none), (1, 0, none), (0, 0, none), (1, 0, none), (0, 0, none), (1, 0, none), (0, 0, none), (1, 0, none)] (by
      intro p
      match p with
      | 0 => rfl
      | 1 => rfl
      | _ + 2 => rfl)
  have e : bytesAt overwritersRun.1.fs [ascii "bbs", ascii "boards", ascii "S", ascii "S", ascii "M.1"] = ascii "HEllo!" := by decide +kernel
  have e' : bytesAt mixedFS [ascii "bbs", ascii "boards", ascii "S", ascii "S", ascii "M.1"] = ascii "hello" := by decide +kernel
  rw [e'] at h1
  have h2 := congrArg (List.take 1) (e.symm.trans h1)
  rw [show (ascii "hello" ++ (order.map (·.2)).flatten).take 1 = ascii "h" from rfl] at h2
  exact absurd h2 (by decide)

/-! ## Examples -/

/-- Two clients add to one article while a third saves a draft; one of the additions is refused. -/
def several : Nat → List Call
  | 0 => [.appendArticle (ascii "S") (ascii "M.1") (ascii "A"), .appendArticle (ascii "S") (ascii "M.1") (ascii "B")]
  | 1 => [.appendArticle (ascii "S") (ascii "M.1") (ascii "C")]
  | 2 => [.writeDraft (ascii "SYSOP") (ascii "1") (ascii "x"), .readArticle (ascii "S") (ascii "M.1")]
  | _ => []

def severalRun : Site × List Event := (fresh mixedFS several).runUnder mixedDB mixedCodec
  [(0, 0, none), (1, 0, none), (0, 0, none), (1, 0, none), (0, 0, some "input/output error"), (1, 0, none), (2, 0, none), (0, 0, none), (1, 0, none),
    (0, 0, none), (0, 0, none), (0, 0, none), (0, 0, none)]

/-- The hypothesis of `C145_added` is met. -/
theorem several_meets : ∀ p, ∀ op ∈ several p, (∃ bs, addedTo mixedDB mixedCodec [ascii "bbs", ascii "boards", ascii "S", ascii "S", ascii "M.1"] op = some bs) ∨
    LeavesAlone mixedDB [ascii "bbs", ascii "boards", ascii "S", ascii "S", ascii "M.1"] op := by
  intro p op hop
  match p, hop with
  | 0, hop =>
    simp only [several, List.mem_cons, List.not_mem_nil, or_false] at hop
    rcases hop with rfl | rfl
    · exact .inl ⟨ascii "A", by decide +kernel⟩
    · exact .inl ⟨ascii "B", by decide +kernel⟩
  | 1, hop =>
    simp only [several, List.mem_cons, List.not_mem_nil, or_false] at hop
    rcases hop with rfl
    exact .inl ⟨ascii "C", by decide +kernel⟩
  | 2, hop =>
    simp only [several, List.mem_cons, List.not_mem_nil, or_false] at hop
    rcases hop with rfl | rfl
    · refine .inr (.inr fun q hq => ?_)
      have := Res.ok.inj ((show getUserDraftPath mixedDB.home (ascii "SYSOP") (ascii "1") = .ok (ascii "/bbs/home/S/SYSOP/buf.1") by decide +kernel).symm.trans hq)
      rw [← this]
      decide +kernel
    · exact .inr (.inl trivial)
  | _ + 3, hop => cases hop

/-- What is refused is not there, and all the rest is. -/
example : bytesAt severalRun.1.fs [ascii "bbs", ascii "boards", ascii "S", ascii "S", ascii "M.1"] = ascii "helloCB" := by decide +kernel
example : (succeeded 0 none severalRun.2).filterMap (addedTo mixedDB mixedCodec [ascii "bbs", ascii "boards", ascii "S", ascii "S", ascii "M.1"]) = [ascii "B"] := by
  decide +kernel
example : (succeeded 1 none severalRun.2).filterMap (addedTo mixedDB mixedCodec [ascii "bbs", ascii "boards", ascii "S", ascii "S", ascii "M.1"]) = [ascii "C"] := by
  decide +kernel

/-- Non-vacuity of `C145_articles` and `C145_boards`: a list that is not there yet, and calls that add to it. -/
example (r : FileHeader) : getBoardArticlesDirectoryPath mixedDB.home (ascii "S") = .ok (ascii "/bbs/boards/S/S/.DIR") ∧
    128 ∣ (bytesAt ⟨[]⟩ (resolve mixedDB.cwd (ascii "/bbs/boards/S/S/.DIR"))).length ∧
    ∀ op ∈ [Call.addRecord (ascii "S") r, .readUsers], (∃ r, op = .addRecord (ascii "S") r) ∨ LeavesAlone mixedDB (resolve mixedDB.cwd (ascii "/bbs/boards/S/S/.DIR")) op := by
  refine ⟨by decide +kernel, ⟨0, by decide +kernel⟩, fun op hop => ?_⟩
  simp only [List.mem_cons, List.not_mem_nil, or_false] at hop
  rcases hop with rfl | rfl
  · exact .inl ⟨r, rfl⟩
  · exact .inr (.inl trivial)
example (r : BoardHeader) : getBoardPath mixedDB.home = .ok (ascii "/bbs/.BRD") ∧ 256 ∣ (bytesAt ⟨[]⟩ (resolve mixedDB.cwd (ascii "/bbs/.BRD"))).length ∧
    ∀ op ∈ [Call.addBoard r, .readBoards], (∃ r, op = .addBoard r) ∨ LeavesAlone mixedDB (resolve mixedDB.cwd (ascii "/bbs/.BRD")) op := by
  refine ⟨by decide +kernel, ⟨0, by decide +kernel⟩, fun op hop => ?_⟩
  simp only [List.mem_cons, List.not_mem_nil, or_false] at hop
  rcases hop with rfl | rfl
  · exact .inl ⟨r, rfl⟩
  · exact .inr (.inl trivial)

end Verif
