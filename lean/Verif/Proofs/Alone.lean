import Verif.Model.Alone
import Verif.Proofs.Concurrent
/-!
# Helper lemmas for one call with the disk to itself
-/

namespace Verif
open Spec

/-- Within `m` system calls the client has the answer `r`, and the disk is like `D`. -/
def EndsIn (cwd : Path) (m : Nat) (fs : FS) (j : Job) (D : FS) (r : Res Answer) : Prop :=
  ∀ ns : List Nat, m ≤ ns.length → ∃ fs', j.play cwd ns fs = (fs', .done r) ∧ ∀ q, fs'.get q = D.get q

/-- The client never gets an answer, and the disk stays as it is. -/
def Never (cwd : Path) (fs : FS) (j : Job) : Prop :=
  ∀ ns : List Nat, (j.play cwd ns fs).1 = fs ∧ ∀ r, (j.play cwd ns fs).2 = .done r → r = .diverge

/-- The client gets this answer, or none at all. -/
def Plays (cwd : Path) (m : Nat) (fs : FS) (j : Job) (D : FS) (r : Res Answer) : Prop :=
  (r ≠ .diverge → EndsIn cwd m fs j D r) ∧ (r = .diverge → Never cwd fs j)

section
variable {cwd : Path}

theorem play_done (ns : List Nat) (fs : FS) (r : Res Answer) : Job.play cwd ns fs (.done r) = (fs, .done r) := by
  induction ns with
  | nil => rfl
  | cons n ns ih => exact ih

theorem plays_done (m : Nat) (fs : FS) (r : Res Answer) : Plays cwd m fs (.done r) fs r := by
  constructor
  · intro _ ns _
    exact ⟨fs, play_done ns fs r, fun _ => rfl⟩
  · rintro rfl ns
    rw [play_done]
    exact ⟨rfl, fun r h => by cases h; rfl⟩

theorem EndsIn.mono {m m' : Nat} {fs : FS} {j : Job} {D : FS} {r : Res Answer} (h : EndsIn cwd m fs j D r) (hm : m ≤ m') :
    EndsIn cwd m' fs j D r := fun ns hn => h ns (Nat.le_trans hm hn)

theorem Plays.mono {m m' : Nat} {fs : FS} {j : Job} {D : FS} {r : Res Answer} (h : Plays cwd m fs j D r) (hm : m ≤ m') :
    Plays cwd m' fs j D r := ⟨fun hr => (h.1 hr).mono hm, h.2⟩

/-- One system call that leaves the disk as it is. -/
theorem plays_step {m : Nat} {fs : FS} {j j' : Job} {D : FS} {r : Res Answer} (hs : ∀ n, j.step cwd fs n = (fs, j'))
    (h : Plays cwd m fs j' D r) : Plays cwd (m + 1) fs j D r := by
  constructor
  · intro hr ns hn
    cases ns with
    | nil => simp at hn
    | cons n ns =>
      rw [Job.play, hs]
      exact h.1 hr ns (by simpa using hn)
  · intro hr ns
    cases ns with
    | nil =>
      refine ⟨rfl, fun r e => (h.2 hr []).2 r ?_⟩
      have e : j = .done r := e
      have := hs 0
      rw [e] at this
      exact (congrArg Prod.snd this).symm
    | cons n ns =>
      rw [Job.play, hs]
      exact h.2 hr ns

/-- One system call, in a call that ends. -/
theorem ends_step {m : Nat} {fs : FS} {j : Job} {D : FS} {r : Res Answer}
    (h : ∀ n, EndsIn cwd m (j.step cwd fs n).1 (j.step cwd fs n).2 D r) : EndsIn cwd (m + 1) fs j D r := by
  intro ns hn
  cases ns with
  | nil => simp at hn
  | cons n ns => exact h n ns (by simpa using hn)

theorem plays_orStop {α : Type} {m : Nat} {fs : FS} {k : α → Job} {x : Res α} {g : α → Res Answer} (h : ∀ a, x = .ok a → Plays cwd m fs (k a) fs (g a)) :
    Plays cwd m fs (Job.orStop k x) fs (x >>= g) := by
  cases x with
  | ok a => exact h a rfl
  | err e => exact plays_done m fs _
  | panic => exact plays_done m fs _
  | diverge => exact plays_done m fs _

/-- Reading a file to its end. -/
theorem plays_read {m : Nat} {fs : FS} {l : Path} {size : Nat} {d : Bytes} {k : Res (List Bytes) → Job} {D : FS} {r : Res Answer}
    (hl : fs.get l = some (.file d)) (h : ∀ got, Complete size got d → Plays cwd m fs (k (.ok got)) D r) :
    ∀ (left : Nat) (got : List Bytes) (pos : Nat), ReadOk size got pos d → d.length - pos ≤ left →
    Plays cwd (m + left + 1) fs (.read l size got pos k) D r := by
  intro left
  induction left with
  | zero =>
    intro got pos hr hle
    have hp : ¬ pos < d.length := by omega
    refine plays_step (j' := k (.ok got)) (fun n => ?_) (h got (hr.complete hp))
    simp only [Job.step, hl, if_neg hp]
  | succ left ih =>
    intro got pos hr hle
    by_cases hp : pos < d.length
    · have hlen : ∀ n, 0 < (slice d pos (pos + if size = 0 then n + 1 else size)).length := by
        intro n
        simp only [slice, List.length_drop, List.length_take]
        by_cases hz : size = 0
        · rw [if_pos hz]; omega
        · rw [if_neg hz]; omega
      have hs : ∀ n, Job.step cwd fs n (.read l size got pos k) = (fs, .read l size
          (got ++ [slice d pos (pos + if size = 0 then n + 1 else size)])
          (pos + (slice d pos (pos + if size = 0 then n + 1 else size)).length) k) := by
        intro n
        simp only [Job.step, hl, if_pos hp]
      have hg := fun n => ih _ _ (hr.step hp n) (by have := hlen n; omega)
      constructor
      · intro hr'
        refine ends_step (m := m + left + 1) fun n => ?_
        rw [hs]
        exact (hg n).1 hr'
      · intro hr' ns
        cases ns with
        | nil => exact ⟨rfl, fun r e => by cases e⟩
        | cons n ns =>
          rw [Job.play, hs]
          exact (hg n).2 hr' ns
    · refine Plays.mono (m := m + 0 + 1) ?_ (by omega)
      refine plays_step (j' := k (.ok got)) (fun n => ?_) (h got (hr.complete hp))
      simp only [Job.step, hl, if_neg hp]

/-- Reading the records of a directory has no end. -/
theorem never_read {fs : FS} {l : Path} {size : Nat} {k : Res (List Bytes) → Job} (hl : fs.get l = some .dir) (hs : 0 < size) (ns : List Nat) :
    ∀ (got : List Bytes) (pos : Nat), (Job.play cwd ns fs (.read l size got pos k)).1 = fs ∧
      ∀ r, (Job.play cwd ns fs (.read l size got pos k)).2 ≠ .done r := by
  induction ns with
  | nil => intro got pos; exact ⟨rfl, fun r e => by cases e⟩
  | cons n ns ih =>
    intro got pos
    have e : Job.step cwd fs n (.read l size got pos k) = (fs, .read l size (got ++ [[]]) pos k) := by
      simp only [Job.step, hl, if_neg (show ¬ size = 0 by omega)]
    rw [Job.play, e]
    exact ih _ pos

/-- The files of a list of records. -/
def listAt {α : Type} (cwd : Path) (fs : FS) (p : Bytes) (size : Nat) (parse : Bytes → Res α) : Res (List α) := do
  let l ← fs.lookup cwd p
  match fs.get l with
  | none => .err "no such file or directory"
  | some .dir => .diverge
  | some (.file d) => readFile size parse (some d)

theorem openBoardList_eq (db : DB) (c : Codec) (fs : FS) (p : Bytes) :
    db.openBoardList c fs p = listAt db.cwd fs p 256 (BoardHeader.unmarshal c) := rfl
theorem openUserList_eq (db : DB) (c : Codec) (fs : FS) (p : Bytes) :
    db.openUserList c fs p = listAt db.cwd fs p 512 (Userec.unmarshal c) := rfl
theorem openArticleList_eq (db : DB) (c : Codec) (fs : FS) (p : Bytes) :
    db.openArticleList c fs p = listAt db.cwd fs p 128 (FileHeader.unmarshal c) := rfl

/-- How many system calls reading the file at `p` may take. -/
def cost (cwd : Path) (fs : FS) (p : Bytes) : Nat :=
  match fs.lookup cwd p with
  | .ok l => match fs.get l with
    | some (.file d) => d.length + 2
    | _ => 2
  | _ => 2

theorem plays_list {α : Type} {m : Nat} {fs : FS} {p : Bytes} {size : Nat} {parse : Bytes → Res α} {f : Bytes → α} {k : List α → Job}
    {g : List α → Res Answer} (h0 : 0 < size) (hp : ∀ b, b.length = size → parse b = .ok (f b)) (h : ∀ l, Plays cwd m fs (k l) fs (g l)) :
    Plays cwd (m + cost cwd fs p) fs (Job.readList p size parse k) fs (listAt cwd fs p size parse >>= g) := by
  unfold Job.readList listAt cost
  cases e : fs.lookup cwd p with
  | err x =>
    refine plays_step (j' := .done (.err x)) (m := m + 1) (fun n => ?_) (plays_done _ _ _)
    simp only [Job.step, Job.opened, e, Res.err_bind, Job.orStop]
  | panic =>
    refine plays_step (j' := .done .panic) (m := m + 1) (fun n => ?_) (plays_done _ _ _)
    simp only [Job.step, Job.opened, e]; rfl
  | diverge =>
    refine plays_step (j' := .done .diverge) (m := m + 1) (fun n => ?_) (plays_done _ _ _)
    simp only [Job.step, Job.opened, e]; rfl
  | ok l =>
    rw [Res.ok_bind]
    dsimp only
    cases e' : fs.get l with
    | none =>
      refine plays_step (j' := .done (.err "no such file or directory")) (m := m + 1) (fun n => ?_) (plays_done _ _ _)
      simp only [Job.step, Job.opened, e, Res.ok_bind, e', Job.orStop]
    | some nd =>
      cases nd with
      | dir =>
        refine plays_step (j' := .read l size [] 0 (Job.orStop fun got => Job.orStop k (got.mapM fun b => parse (padTo size b)))) (m := m + 1)
          (fun n => ?_) ?_
        · simp only [Job.step, Job.opened, e, Res.ok_bind, e', Job.orStop, Bool.false_eq_true, if_false]
        · refine ⟨fun h => absurd rfl h, fun _ ns => ?_⟩
          have := never_read (cwd := cwd) (k := Job.orStop fun got => Job.orStop k (got.mapM fun b => parse (padTo size b))) e' h0 ns [] 0
          exact ⟨this.1, fun r hr => absurd hr (this.2 r)⟩
      | file d =>
        dsimp only
        rw [readFile_slots h0 hp, Res.ok_bind]
        refine plays_step (j' := .read l size [] 0 (Job.orStop fun got => Job.orStop k (got.mapM fun b => parse (padTo size b)))) (m := m + d.length + 1)
          (fun n => ?_) ?_
        · simp only [Job.step, Job.opened, e, Res.ok_bind, e', Job.orStop]
        · refine plays_read e' (fun got hc => ?_) d.length [] 0 (ReadOk.start size d) (by omega)
          rcases hc with ⟨hz, _⟩ | ⟨_, hc⟩
          · omega
          · simp only [Job.orStop]
            rw [mapM_pieces hp, hc]
            exact h _

theorem plays_whole {m : Nat} {fs : FS} {p : Bytes} {k : Bytes → Job} {g : Bytes → Res Answer} (h : ∀ x, Plays cwd m fs (k x) fs (g x)) :
    Plays cwd (m + cost cwd fs p) fs (Job.readWhole p k) fs (fs.readFile cwd p >>= g) := by
  unfold Job.readWhole FS.readFile cost
  cases e : fs.lookup cwd p with
  | err x =>
    refine plays_step (j' := .done (.err x)) (m := m + 1) (fun n => ?_) (plays_done _ _ _)
    simp only [Job.step, Job.opened, e, Res.err_bind, Job.orStop]
  | panic =>
    refine plays_step (j' := .done .panic) (m := m + 1) (fun n => ?_) (plays_done _ _ _)
    simp only [Job.step, Job.opened, e]; rfl
  | diverge =>
    refine plays_step (j' := .done .diverge) (m := m + 1) (fun n => ?_) (plays_done _ _ _)
    simp only [Job.step, Job.opened, e]; rfl
  | ok l =>
    rw [Res.ok_bind]
    dsimp only
    cases e' : fs.get l with
    | none =>
      refine plays_step (j' := .done (.err "no such file or directory")) (m := m + 1) (fun n => ?_) (plays_done _ _ _)
      simp only [Job.step, Job.opened, e, Res.ok_bind, e', Job.orStop]
    | some nd =>
      cases nd with
      | dir =>
        refine plays_step (j' := .read l 0 [] 0 (Job.orStop fun got => k got.flatten)) (m := m + 1) (fun n => ?_) ?_
        · simp only [Job.step, Job.opened, e, Res.ok_bind, e', Job.orStop, Bool.false_eq_true, if_false]
        · refine plays_step (j' := .done (.err "is a directory")) (m := m) (fun n => ?_) (plays_done _ _ _)
          simp only [Job.step, e', if_true, Job.orStop]
      | file d =>
        dsimp only
        rw [Res.ok_bind]
        refine plays_step (j' := .read l 0 [] 0 (Job.orStop fun got => k got.flatten)) (m := m + d.length + 1) (fun n => ?_) ?_
        · simp only [Job.step, Job.opened, e, Res.ok_bind, e', Job.orStop]
        · refine plays_read e' (fun got hc => ?_) d.length [] 0 (ReadOk.start 0 d) (by omega)
          rcases hc with ⟨_, hc⟩ | ⟨hz, _⟩
          · simp only [Job.orStop]
            rw [hc]
            exact h _
          · omega

/-- The list of articles of a board. -/
theorem plays_articles {fs : FS} {c : Codec} {p : Bytes} :
    Plays cwd (0 + cost cwd fs p) fs (.openRead p fun
      | .err e => .done (if e = "no such file or directory" then .ok (.articles []) else .err e)
      | r => Job.orStop (fun l => .read l 128 [] 0 (Job.orStop fun got =>
          Job.orStop (fun l => .done (.ok (.articles l))) (got.mapM fun b => FileHeader.unmarshal c (padTo 128 b)))) r) fs
      ((match listAt cwd fs p 128 (FileHeader.unmarshal c) with
        | .err e => if e = "no such file or directory" then .ok [] else .err e
        | r => r) >>= fun l => .ok (.articles l)) := by
  unfold listAt cost
  cases e : fs.lookup cwd p with
  | err x =>
    refine plays_step (j' := .done (if x = "no such file or directory" then .ok (.articles []) else .err x)) (m := 0 + 1) (fun n => ?_) ?_
    · simp only [Job.step, Job.opened, e, Res.err_bind]
    · have h : ((match (Res.err x >>= fun l => match fs.get l with
          | none => .err "no such file or directory"
          | some .dir => .diverge
          | some (.file d) => readFile 128 (FileHeader.unmarshal c) (some d) : Res (List FileHeader)) with
        | .err e => if e = "no such file or directory" then .ok [] else .err e
        | r => r) >>= fun l => (.ok (.articles l) : Res Answer)) = if x = "no such file or directory" then .ok (.articles []) else .err x := by
        simp only [Res.err_bind]
        split <;> rfl
      rw [h]
      exact plays_done _ _ _
  | panic =>
    refine plays_step (j' := .done .panic) (m := 0 + 1) (fun n => ?_) (plays_done _ _ _)
    simp only [Job.step, Job.opened, e]; rfl
  | diverge =>
    refine plays_step (j' := .done .diverge) (m := 0 + 1) (fun n => ?_) (plays_done _ _ _)
    simp only [Job.step, Job.opened, e]; rfl
  | ok l =>
    rw [Res.ok_bind]
    dsimp only
    cases e' : fs.get l with
    | none =>
      refine plays_step (j' := .done (.ok (.articles []))) (m := 0 + 1) (fun n => ?_) (plays_done _ _ _)
      simp only [Job.step, Job.opened, e, Res.ok_bind, e', if_true]
    | some nd =>
      cases nd with
      | dir =>
        refine plays_step (j' := .read l 128 [] 0 (Job.orStop fun got =>
          Job.orStop (fun l => .done (.ok (.articles l))) (got.mapM fun b => FileHeader.unmarshal c (padTo 128 b)))) (m := 0 + 1)
          (fun n => ?_) ?_
        · simp only [Job.step, Job.opened, e, Res.ok_bind, e', Job.orStop, Bool.false_eq_true, if_false]
        · refine ⟨fun h => absurd rfl h, fun _ ns => ?_⟩
          have := never_read (cwd := cwd) (k := Job.orStop fun got =>
            Job.orStop (fun l => .done (.ok (.articles l))) (got.mapM fun b => FileHeader.unmarshal c (padTo 128 b))) e'
            (show 0 < 128 by omega) ns [] 0
          exact ⟨this.1, fun r hr => absurd hr (this.2 r)⟩
      | file d =>
        dsimp only
        rw [readFile_slots (by omega) (FileHeader.unmarshal_eq c)]
        refine plays_step (j' := .read l 128 [] 0 (Job.orStop fun got =>
          Job.orStop (fun l => .done (.ok (.articles l))) (got.mapM fun b => FileHeader.unmarshal c (padTo 128 b)))) (m := 0 + d.length + 1)
          (fun n => ?_) ?_
        · simp only [Job.step, Job.opened, e, Res.ok_bind, e', Job.orStop]
        · refine plays_read e' (fun got hc => ?_) d.length [] 0 (ReadOk.start 128 d) (by omega)
          rcases hc with ⟨hz, _⟩ | ⟨_, hc⟩
          · omega
          · simp only [Job.orStop]
            rw [mapM_pieces (FileHeader.unmarshal_eq c), hc]
            exact plays_done _ _ _

/-- The disk after opening with `O_CREATE`. -/
def made (fs : FS) (l : Path) : FS := if (fs.get l).isNone then fs.set l (.file []) else fs

theorem made_get {fs : FS} {l : Path} {d : Bytes} (hl : fs.get l ≠ some .dir) (hd : d = (Spec.fileAt fs l).getD []) :
    (made fs l).get l = some (.file d) := by
  unfold made
  cases e : fs.get l with
  | none =>
    subst hd
    simp [Spec.fileAt, e, FS.get_set (FS.ne_root hl)]
  | some nd =>
    cases nd with
    | dir => exact absurd e hl
    | file x =>
      subst hd
      simp [Spec.fileAt, e]

theorem made_set {fs : FS} {l : Path} (hroot : l ≠ []) (n : Node) (q : Path) : ((made fs l).set l n).get q = (fs.set l n).get q := by
  rw [FS.get_set hroot, FS.get_set hroot]
  by_cases hq : q = l
  · rw [if_pos hq, if_pos hq]
  · rw [if_neg hq, if_neg hq]
    unfold made
    split
    · rw [FS.get_set hroot, if_neg hq]
    · rfl

end

end Verif
