import Verif.Props.Alone
import Verif.Props.Concurrent
/-!
# C121: the machine stops in the middle of a call
-/

namespace Verif
open Spec

/-- The two disks show the same. -/
def Spec.Same (fs fs' : FS) : Prop := ∀ q, fs.get q = fs'.get q

/-- The path of the file a call writes to. -/
def Spec.target (db : DB) : Call → Res Bytes
  | .addBoard _ => getBoardPath db.home
  | .addRecord b _ => getBoardArticlesDirectoryPath db.home b
  | .writeArticle b f _ => getBoardArticleFilePath db.home b f
  | .appendArticle b f _ => getBoardArticleFilePath db.home b f
  | .writeDraft u d _ => getUserDraftPath db.home u d
  | _ => .err "no file is written to"

/-- What a file has whose content was `old` when the first `k` bytes have been written to it. -/
def Spec.begun (c : Codec) (k : Nat) (old : Bytes) : Call → Bytes
  | .addBoard r => old ++ (r.marshal c).take k
  | .addRecord _ r => old ++ (r.marshal c).take k
  | .writeArticle _ _ x => x.take k ++ old.drop (min k x.length)
  | .appendArticle _ _ x => old ++ x.take k
  | .writeDraft _ _ x => x.take k
  | _ => old

/-- The call makes its file if there is none. -/
def Spec.makes : Call → Prop
  | .appendArticle _ _ _ => False
  | _ => True

/-- A disk that is left when the machine stops: nothing has happened, everything has happened, or a part of what the call writes is in its file. -/
def Spec.Left (db : DB) (c : Codec) (fs : FS) (op : Call) (D : FS) : Prop :=
  Same D fs ∨ Same D (op.exec db c fs).1 ∨
  ∃ p l old k, target db op = .ok p ∧ fs.lookup db.cwd p = .ok l ∧ (fs.get l = some (.file old) ∨ fs.get l = none ∧ old = [] ∧ makes op) ∧
    D.get l = some (.file (begun c k old op)) ∧ SameExcept fs D [l]

theorem same_refl (fs : FS) : Same fs fs := fun _ => rfl

/-- A client that only reads. -/
def OnlyLooks : Job → Prop
  | .done _ => True
  | .stat _ k => ∀ b, OnlyLooks (k b)
  | .openRead _ k => ∀ r, OnlyLooks (k r)
  | .read _ _ _ _ k => ∀ r, OnlyLooks (k r)
  | _ => False

theorem looks_step {cwd : Path} {fs : FS} {j : Job} (h : OnlyLooks j) (n : Nat) : (j.step cwd fs n).1 = fs ∧ OnlyLooks (j.step cwd fs n).2 := by
  cases j with
  | done r => exact ⟨rfl, trivial⟩
  | stat p k => exact ⟨rfl, h _⟩
  | openRead p k => exact ⟨rfl, h _⟩
  | read l size got pos k =>
    simp only [Job.step]
    split
    · split
      · exact ⟨rfl, h⟩
      · exact ⟨rfl, h _⟩
    · split
      · exact ⟨rfl, h _⟩
      · exact ⟨rfl, h⟩
    · exact ⟨rfl, h _⟩
  | openWrite p k => exact h.elim
  | openMake p k => exact h.elim
  | openTrunc p k => exact h.elim
  | openExcl p k => exact h.elim
  | append l bs k => exact h.elim
  | put l bs k => exact h.elim
  | unlink p k => exact h.elim

theorem looks_play {cwd : Path} (ns : List Nat) : ∀ {fs : FS} {j : Job}, OnlyLooks j → (j.play cwd ns fs).1 = fs ∧ OnlyLooks (j.play cwd ns fs).2 := by
  induction ns with
  | nil => intro fs j h; exact ⟨rfl, h⟩
  | cons n ns ih =>
    intro fs j h
    obtain ⟨h1, h2⟩ := looks_step (cwd := cwd) (fs := fs) h n
    rw [Job.play, h1]
    exact ih h2

theorem looks_halt {cwd : Path} {ns : List Nat} {k : Nat} {fs : FS} {j : Job} (h : OnlyLooks j) :
    Job.halt (j.play cwd ns fs).1 k (j.play cwd ns fs).2 = fs := by
  obtain ⟨h1, h2⟩ := looks_play (cwd := cwd) ns (fs := fs) h
  rw [h1]
  cases e : (j.play cwd ns fs).2 with
  | append l bs k => rw [e] at h2; exact h2.elim
  | put l bs k => rw [e] at h2; exact h2.elim
  | _ => rfl

theorem looks_orStop {α : Type} {k : α → Job} (h : ∀ a, OnlyLooks (k a)) (r : Res α) : OnlyLooks (Job.orStop k r) := by
  cases r with
  | ok a => exact h a
  | _ => trivial

theorem looks_list {α : Type} {p : Bytes} {size : Nat} {parse : Bytes → Res α} {k : List α → Job} (h : ∀ a, OnlyLooks (k a)) :
    OnlyLooks (Job.readList p size parse k) := by
  simp only [Job.readList, OnlyLooks]
  intro r
  apply looks_orStop
  intro l
  simp only [OnlyLooks]
  intro r
  exact looks_orStop (fun _ => looks_orStop h _) r

theorem looks_whole {p : Bytes} {k : Bytes → Job} (h : ∀ a, OnlyLooks (k a)) : OnlyLooks (Job.readWhole p k) := by
  simp only [Job.readWhole, OnlyLooks]
  intro r
  apply looks_orStop
  intro l
  simp only [OnlyLooks]
  intro r
  exact looks_orStop (fun _ => h _) r

/-- The calls that only read. -/
def Spec.onlyReads : Call → Prop
  | .addBoard _ | .createArticle .. | .addRecord .. | .writeArticle .. | .appendArticle .. | .deleteDraft .. | .writeDraft .. => False
  | _ => True

theorem looks_start (db : DB) (c : Codec) {op : Call} (h : onlyReads op) : OnlyLooks (Job.start db c op) := by
  have done : ∀ r, OnlyLooks (.done r) := fun _ => by simp only [OnlyLooks]
  cases op with
  | readUsers => simp only [Job.start]; generalize getPasswdsPath db.home = x; apply looks_orStop; intro p; apply looks_list; intro l; exact done _
  | readBoards => simp only [Job.start]; generalize getBoardPath db.home = x; apply looks_orStop; intro p; apply looks_list; intro l; exact done _
  | listTreasure b ds => simp only [Job.start]; apply looks_orStop; intro p; apply looks_list; intro l; exact done _
  | readArticle b f => simp only [Job.start]; apply looks_orStop; intro p; apply looks_whole; intro l; exact done _
  | readTreasure b ds f => simp only [Job.start]; apply looks_orStop; intro p; apply looks_whole; intro l; exact done _
  | readDraft u d =>
    simp only [Job.start]
    apply looks_orStop
    intro p
    simp only [OnlyLooks]
    intro b
    cases b
    · exact done _
    · apply looks_whole; intro l; exact done _
  | readFavourites u =>
    simp only [Job.start]
    apply looks_orStop
    intro p
    simp only [OnlyLooks]
    intro b
    cases b
    · exact done _
    · apply looks_whole; intro l
      apply looks_orStop; intro fav
      generalize getBoardPath db.home = x
      apply looks_orStop; intro bp
      apply looks_list; intro br
      apply looks_orStop; intro _
      exact done _
  | listArticles b =>
    simp only [Job.start]
    apply looks_orStop
    intro p
    simp only [OnlyLooks]
    intro r
    have h : ∀ r, OnlyLooks (Job.orStop (fun l => .read l 128 [] 0 (Job.orStop fun got =>
        Job.orStop (fun l => .done (.ok (.articles l))) (got.mapM fun b => FileHeader.unmarshal c (padTo 128 b)))) r) := by
      apply looks_orStop
      intro l
      simp only [OnlyLooks]
      intro r
      apply looks_orStop; intro _
      apply looks_orStop; intro _
      exact done _
    cases r with
    | err e => exact done _
    | ok l => exact h (.ok l)
    | panic => exact h .panic
    | diverge => exact h .diverge
  | addBoard _ => exact h.elim
  | createArticle => exact h.elim
  | addRecord => exact h.elim
  | writeArticle => exact h.elim
  | appendArticle => exact h.elim
  | deleteDraft => exact h.elim
  | writeDraft => exact h.elim

theorem halt_done (fs : FS) (k : Nat) (r : Res Answer) : Job.halt fs k (.done r) = fs := rfl

/-- After its last system call nothing happens to the disk any more. -/
theorem stopped_done {cwd : Path} {ns : List Nat} {k : Nat} {fs : FS} {r : Res Answer} :
    Job.halt (Job.play cwd ns fs (.done r)).1 k (Job.play cwd ns fs (.done r)).2 = fs := by rw [play_done, halt_done]

theorem writeAt_start (d x : Bytes) (k : Nat) : writeAt d 0 (x.take k) = x.take k ++ d.drop (min k x.length) := by
  simp [writeAt, List.length_take]

theorem set_except {fs : FS} {l : Path} (h : l ≠ []) (n : Node) : SameExcept fs (fs.set l n) [l] := by
  intro q hq
  rw [FS.get_set h, if_neg (by simpa using hq)]

/-- Opening for writing with `O_CREATE`, then a write. -/
theorem stopped_make {cwd : Path} {fs : FS} {p : Bytes} {w : Path → Job} {f : Nat → Bytes → Bytes} {full : Bytes → Bytes}
    (hw : ∀ (l : Path) (fs1 : FS) (d : Bytes), fs1.get l = some (.file d) →
      (∀ n, (w l).step cwd fs1 n = (fs1.set l (.file (full d)), .done (.ok .done))) ∧ ∀ k, Job.halt fs1 k (w l) = fs1.set l (.file (f k d)))
    (ns : List Nat) (k : Nat) (D : FS)
    (hD : D = Job.halt (Job.play cwd ns fs (.openMake p (Job.orStop w))).1 k (Job.play cwd ns fs (.openMake p (Job.orStop w))).2) :
    Same D fs ∨ Same D (writes fs (do let (l, d) ← fs.openCreate cwd p; .ok (fs.set l (.file (full d))))).1 ∨
      ∃ l old, fs.lookup cwd p = .ok l ∧ (fs.get l = some (.file old) ∨ fs.get l = none ∧ old = []) ∧
        D.get l = some (.file (f k old)) ∧ SameExcept fs D [l] := by
  cases ns with
  | nil => left; rw [hD]; exact same_refl _
  | cons n ns =>
    cases e : fs.openCreate cwd p with
    | err x =>
      left; rw [hD, Job.play]
      simp only [Job.step, e, Job.orStop]
      rw [stopped_done]; exact same_refl _
    | panic =>
      left; rw [hD, Job.play]
      simp only [Job.step, e, Job.orStop]
      rw [stopped_done]; exact same_refl _
    | diverge =>
      left; rw [hD, Job.play]
      simp only [Job.step, e, Job.orStop]
      rw [stopped_done]; exact same_refl _
    | ok x =>
      obtain ⟨l, d⟩ := x
      obtain ⟨hlk, hl, hd⟩ := FS.openCreate_ok e
      have hroot : l ≠ [] := FS.ne_root hl
      have hg := made_get hl hd
      have e1 : Job.step cwd fs n (.openMake p (Job.orStop w)) = (made fs l, w l) := by simp only [Job.step, e, Job.orStop, made]
      rw [Job.play, e1] at hD
      right
      cases ns with
      | nil =>
        right
        refine ⟨l, d, hlk, ?_, ?_⟩
        · unfold fileAt at hd
          cases e' : fs.get l with
          | none => rw [e'] at hd; exact Or.inr ⟨rfl, hd⟩
          | some nd =>
            cases nd with
            | dir => exact absurd e' hl
            | file y => rw [e'] at hd; left; rw [hd]; rfl
        · rw [hD, Job.play, (hw l _ d hg).2 k]
          refine ⟨by rw [FS.get_set hroot, if_pos rfl], fun q hq => ?_⟩
          rw [made_set hroot, set_except hroot _ q hq]
      | cons n' ns =>
        left
        rw [Job.play, (hw l _ d hg).1 n', stopped_done] at hD
        intro q
        rw [hD, made_set hroot]
        rfl

theorem left_path {db : DB} {c : Codec} {fs : FS} {op : Call} {k : Bytes → Job} {x : Res Bytes} {ns : List Nat} {kk : Nat}
    (h : ∀ p, x = .ok p → Left db c fs op (Job.halt (Job.play db.cwd ns fs (k p)).1 kk (Job.play db.cwd ns fs (k p)).2)) :
    Left db c fs op (Job.halt (Job.play db.cwd ns fs (Job.orStop k x)).1 kk (Job.play db.cwd ns fs (Job.orStop k x)).2) := by
  cases x with
  | ok p => exact h p rfl
  | err e => left; rw [Job.orStop, stopped_done]; exact same_refl _
  | panic => left; rw [Job.orStop, stopped_done]; exact same_refl _
  | diverge => left; rw [Job.orStop, stopped_done]; exact same_refl _

theorem left_tries {db : DB} {fs : FS} {b o d t : Bytes} {draw : Nat → Int × Fin 4096} (fuel : Nat) : ∀ (k : Nat) (ns : List Nat) (kk : Nat),
    Same (Job.halt (Job.play db.cwd ns fs (Job.tryNames db b o d t draw fuel k)).1 kk (Job.play db.cwd ns fs (Job.tryNames db b o d t draw fuel k)).2) fs ∨
    Same (Job.halt (Job.play db.cwd ns fs (Job.tryNames db b o d t draw fuel k)).1 kk (Job.play db.cwd ns fs (Job.tryNames db b o d t draw fuel k)).2)
      (match db.createFilename fs b draw fuel k with | .ok (_, fs') => fs' | _ => fs) := by
  induction fuel with
  | zero => intro k ns kk; left; rw [Job.tryNames, stopped_done]; exact same_refl _
  | succ fuel ih =>
    intro k ns kk
    simp only [Job.tryNames, DB.createFilename]
    cases e : getBoardArticleFilePath db.home b (DB.articleName (draw k).1 (draw k).2) with
    | err x => left; rw [Job.orStop, stopped_done]; exact same_refl _
    | panic => left; rw [Job.orStop, stopped_done]; exact same_refl _
    | diverge => left; rw [Job.orStop, stopped_done]; exact same_refl _
    | ok p =>
      simp only [Job.orStop, Res.ok_bind]
      cases ns with
      | nil => left; exact same_refl _
      | cons n ns =>
        rw [Job.play]
        cases e' : fs.createExcl db.cwd p with
        | ok fs' =>
          right
          simp only [Job.step, e']
          rw [stopped_done]
          exact same_refl _
        | err x => simp only [Job.step, e']; exact ih (k + 1) ns kk
        | panic => simp only [Job.step, e']; exact ih (k + 1) ns kk
        | diverge => simp only [Job.step, e']; exact ih (k + 1) ns kk

theorem left_of_make {db : DB} {c : Codec} {fs D : FS} {op : Call} {p : Bytes} {k : Nat} {e : FS} (ht : target db op = .ok p) (hm : makes op)
    (hx : (op.exec db c fs).1 = e)
    (h : Same D fs ∨ Same D e ∨ ∃ l old, fs.lookup db.cwd p = .ok l ∧ (fs.get l = some (.file old) ∨ fs.get l = none ∧ old = []) ∧
        D.get l = some (.file (begun c k old op)) ∧ SameExcept fs D [l]) : Left db c fs op D := by
  rcases h with h | h | ⟨l, old, h1, h2, h3, h4⟩
  · exact Or.inl h
  · right; left; rw [hx]; exact h
  · refine Or.inr (Or.inr ⟨p, l, old, k, ht, h1, ?_, h3, h4⟩)
    rcases h2 with h2 | ⟨h2, h2'⟩
    · exact Or.inl h2
    · exact Or.inr ⟨h2, h2', hm⟩

/-- **C121, what can be left.** Wherever the machine stops in the middle of a call: the disk is as before, or as after the call, or only the
file that the call writes to differs, and it has a beginning of what the call writes. -/
theorem C121_left (db : DB) (c : Codec) (fs : FS) (op : Call) (ns : List Nat) (k : Nat) : Left db c fs op (op.stopped db c fs ns k) := by
  by_cases ho : onlyReads op
  · left
    unfold Call.stopped
    rw [looks_halt (looks_start db c ho)]
    exact same_refl _
  unfold Call.stopped
  cases op with
  | addBoard r =>
    refine left_path (k := fun p => .openMake p (Job.orStop fun l => .append l (r.marshal c) (.done (.ok .done)))) (x := getBoardPath db.home)
      fun p hp => ?_
    have h := stopped_make (cwd := db.cwd) (fs := fs) (p := p) (w := fun l => .append l (r.marshal c) (.done (.ok .done))) (f := fun k d => begun c k d (.addBoard r))
      (full := (· ++ r.marshal c)) (fun l fs1 d h => ⟨fun n => ?_, fun k => ?_⟩) ns k _ rfl
    · refine left_of_make (op := .addBoard r) (k := k) hp trivial ?_ h
      simp only [Call.exec, DB.addBoardRecord, hp, Res.ok_bind, FS.appendCreate]
    · simp only [Job.step, h]
    · simp only [Job.halt, h]; rfl
  | addRecord b r =>
    refine left_path fun p hp => ?_
    have h := stopped_make (cwd := db.cwd) (fs := fs) (p := p) (w := fun l => .append l (r.marshal c) (.done (.ok .done))) (f := fun k d => begun c k d (.addRecord b r))
      (full := (· ++ r.marshal c)) (fun l fs1 d h => ⟨fun n => ?_, fun k => ?_⟩) ns k _ rfl
    · refine left_of_make (op := .addRecord b r) (k := k) hp trivial ?_ h
      simp only [Call.exec, DB.addArticleRecord, hp, Res.ok_bind, FS.appendCreate]
    · simp only [Job.step, h]
    · simp only [Job.halt, h]; rfl
  | writeArticle b f x =>
    refine left_path fun p hp => ?_
    have h := stopped_make (cwd := db.cwd) (fs := fs) (p := p) (w := fun l => .put l x (.done (.ok .done))) (f := fun k d => begun c k d (.writeArticle b f x))
      (full := (writeAt · 0 x)) (fun l fs1 d h => ⟨fun n => ?_, fun k => ?_⟩) ns k _ rfl
    · refine left_of_make (op := .writeArticle b f x) (k := k) hp trivial ?_ h
      simp only [Call.exec, DB.writeBoardArticleFile, hp, Res.ok_bind, FS.overwrite]
    · simp only [Job.step, h]
    · simp only [Job.halt, h, writeAt_start]; rfl
  | appendArticle b f x =>
    refine left_path fun p hp => ?_
    cases ns with
    | nil => left; exact same_refl _
    | cons n ns =>
      rw [Job.play]
      cases e : fs.lookup db.cwd p with
      | err y => left; simp only [Job.step, Job.opened, e, Res.err_bind, Job.orStop]; rw [stopped_done]; exact same_refl _
      | panic =>
        left
        have : Job.step db.cwd fs n (.openWrite p (Job.orStop fun l => .append l x (.done (.ok .done)))) = (fs, .done .panic) := by
          simp only [Job.step, Job.opened, e]; rfl
        rw [this, stopped_done]; exact same_refl _
      | diverge =>
        left
        have : Job.step db.cwd fs n (.openWrite p (Job.orStop fun l => .append l x (.done (.ok .done)))) = (fs, .done .diverge) := by
          simp only [Job.step, Job.opened, e]; rfl
        rw [this, stopped_done]; exact same_refl _
      | ok l =>
        cases e' : fs.get l with
        | none => left; simp only [Job.step, Job.opened, e, Res.ok_bind, e', Job.orStop]; rw [stopped_done]; exact same_refl _
        | some nd =>
          cases nd with
          | dir => left; simp only [Job.step, Job.opened, e, Res.ok_bind, e', Job.orStop, if_true]; rw [stopped_done]; exact same_refl _
          | file d =>
            have hroot : l ≠ [] := FS.ne_root (fs := fs) (by rw [e']; simp)
            simp only [Job.step, Job.opened, e, Res.ok_bind, e', Job.orStop]
            cases ns with
            | nil =>
              right; right
              refine ⟨p, l, d, k, hp, e, Or.inl e', ?_, ?_⟩
              · simp only [Job.play, Job.halt, e', FS.get_set hroot, if_pos rfl]; rfl
              · simp only [Job.play, Job.halt, e']; exact set_except hroot _
            | cons n' ns =>
              right; left
              simp only [Job.play, Job.step, e']
              rw [stopped_done]
              simp only [Call.exec, DB.appendBoardArticleFile, hp, Res.ok_bind, FS.append, e, e', writes]
              exact same_refl _
  | deleteDraft u d =>
    refine left_path fun p hp => ?_
    cases ns with
    | nil => left; exact same_refl _
    | cons n ns =>
      rw [Job.play]
      cases e : fs.remove db.cwd p with
      | ok fs' =>
        right; left
        simp only [Job.step, e, Job.orStop]
        rw [stopped_done]
        simp only [Call.exec, DB.deleteUserDraft, hp, Res.ok_bind, e, writes]
        exact same_refl _
      | err y => left; simp only [Job.step, e, Job.orStop]; rw [stopped_done]; exact same_refl _
      | panic => left; simp only [Job.step, e, Job.orStop]; rw [stopped_done]; exact same_refl _
      | diverge => left; simp only [Job.step, e, Job.orStop]; rw [stopped_done]; exact same_refl _
  | writeDraft u d x =>
    refine left_path fun p hp => ?_
    cases ns with
    | nil => left; exact same_refl _
    | cons n ns =>
      rw [Job.play]
      cases e : fs.openCreate db.cwd p with
      | err y => left; simp only [Job.step, e, Job.orStop]; rw [stopped_done]; exact same_refl _
      | panic => left; simp only [Job.step, e, Job.orStop]; rw [stopped_done]; exact same_refl _
      | diverge => left; simp only [Job.step, e, Job.orStop]; rw [stopped_done]; exact same_refl _
      | ok y =>
        obtain ⟨l, old⟩ := y
        obtain ⟨hlk, hl, hd⟩ := FS.openCreate_ok e
        have hroot : l ≠ [] := FS.ne_root hl
        have hg : (fs.set l (.file [])).get l = some (.file []) := by rw [FS.get_set hroot, if_pos rfl]
        have hsame : ∀ z, SameExcept fs ((fs.set l (.file [])).set l z) [l] := fun z q hq => by
          rw [set_except hroot _ q hq, set_except hroot _ q hq]
        simp only [Job.step, e, Job.orStop]
        cases ns with
        | nil =>
          right; right
          refine ⟨p, l, old, k, hp, hlk, ?_, ?_, ?_⟩
          · unfold fileAt at hd
            cases e' : fs.get l with
            | none => rw [e'] at hd; exact Or.inr ⟨rfl, hd, trivial⟩
            | some nd =>
              cases nd with
              | dir => exact absurd e' hl
              | file y => rw [e'] at hd; left; rw [hd]; rfl
          · simp only [Job.play, Job.halt, hg, FS.get_set hroot, if_pos rfl, begun, writeAt_start]
            simp
          · simp only [Job.play, Job.halt, hg]
            exact hsame _
        | cons n' ns =>
          right; left
          simp only [Job.play, Job.step, hg]
          rw [stopped_done]
          simp only [Call.exec, DB.writeUserDraft, hp, Res.ok_bind, FS.writeFile, e, writes]
          intro q
          by_cases hq : q = l
          · rw [hq, FS.get_set hroot, if_pos rfl, FS.get_set hroot, if_pos rfl]
            simp [writeAt]
          · rw [hsame _ q (by simpa using hq), FS.get_set hroot, if_neg hq]
  | createArticle b o d t draw fuel =>
    rcases left_tries (db := db) (fs := fs) (b := b) (o := o) (d := d) (t := t) (draw := draw) fuel 0 ns k with h | h
    · exact Or.inl h
    · right; left
      refine fun q => (h q).trans ?_
      simp only [Call.exec, DB.createArticleRecord]
      cases e : db.createFilename fs b draw fuel 0 <;> rfl
  | _ => exact absurd trivial ho

theorem start_halt (db : DB) (c : Codec) (fs : FS) (op : Call) (k : Nat) : Job.halt fs k (Job.start db c op) = fs := by
  by_cases ho : onlyReads op
  · exact looks_halt (cwd := db.cwd) (ns := []) (looks_start db c ho)
  have h : ∀ (w : Bytes → Job) (x : Res Bytes), (∀ p, Job.halt fs k (w p) = fs) → Job.halt fs k (Job.orStop w x) = fs := by
    intro w x hw
    cases x with
    | ok p => exact hw p
    | _ => rfl
  cases op with
  | addBoard r => exact h (fun p => .openMake p (Job.orStop fun l => .append l (r.marshal c) (.done (.ok .done)))) (getBoardPath db.home) fun p => rfl
  | addRecord b r => exact h _ _ fun p => rfl
  | writeArticle b f x => exact h _ _ fun p => rfl
  | appendArticle b f x => exact h _ _ fun p => rfl
  | deleteDraft u d => exact h _ _ fun p => rfl
  | writeDraft u d x => exact h _ _ fun p => rfl
  | createArticle b o d t draw fuel =>
    cases fuel with
    | zero => rfl
    | succ fuel => exact h _ _ fun p => rfl
  | _ => exact absurd trivial ho

theorem exec_diverge {db : DB} {c : Codec} {fs : FS} {op : Call} (h : (op.exec db c fs).2 = .diverge) : (op.exec db c fs).1 = fs := by
  have w : ∀ x : Res FS, (writes fs x).2 = .diverge → (writes fs x).1 = fs := by
    intro x hx
    cases x with
    | ok y => cases hx
    | _ => rfl
  cases op with
  | addBoard r => exact w _ h
  | addRecord b r => exact w _ h
  | writeArticle b f x => exact w _ h
  | appendArticle b f x => exact w _ h
  | deleteDraft u d => exact w _ h
  | writeDraft u d x => exact w _ h
  | createArticle b o d t draw fuel =>
    simp only [Call.exec] at h ⊢
    cases e : db.createArticleRecord fs b o d t draw fuel with
    | ok y => rw [e] at h; cases h
    | _ => rfl
  | _ => rfl

/-- The call opens its file and has written `k` bytes. -/
theorem stopped_begun {db : DB} {c : Codec} {fs : FS} {op : Call} {p : Bytes} {l : Path} {old : Bytes} (k : Nat) (ht : target db op = .ok p)
    (hlk : fs.lookup db.cwd p = .ok l) (hl : fs.get l = some (.file old) ∨ fs.get l = none ∧ old = [] ∧ makes op) :
    Same (op.stopped db c fs [0] k) (fs.set l (.file (begun c k old op))) := by
  have hnd : fs.get l ≠ some .dir := by rcases hl with h | ⟨h, _⟩ <;> rw [h] <;> simp
  have hroot : l ≠ [] := FS.ne_root hnd
  have hd : old = (fileAt fs l).getD [] := by
    unfold fileAt
    rcases hl with h | ⟨h, h', _⟩
    · rw [h]; rfl
    · rw [h, h']; rfl
  have hoc : fs.openCreate db.cwd p = .ok (l, old) := by rw [FS.openCreate_of hlk hnd, ← hd]
  have hg := made_get hnd hd
  have hmk : ∀ (w : Path → Job), (∀ fs1 : FS, fs1.get l = some (.file old) → Job.halt fs1 k (w l) = fs1.set l (.file (begun c k old op))) →
      Same (Job.halt (Job.play db.cwd [0] fs (.openMake p (Job.orStop w))).1 k (Job.play db.cwd [0] fs (.openMake p (Job.orStop w))).2)
        (fs.set l (.file (begun c k old op))) := by
    intro w hw
    have e1 : Job.step db.cwd fs 0 (.openMake p (Job.orStop w)) = (made fs l, w l) := by simp only [Job.step, hoc, Job.orStop, made]
    simp only [Job.play, e1]
    rw [hw _ hg]
    exact made_set hroot _
  unfold Call.stopped
  cases op with
  | addBoard r =>
    have e : Job.start db c (.addBoard r) = .openMake p (Job.orStop fun l => .append l (r.marshal c) (.done (.ok .done))) := by
      have ht : getBoardPath db.home = .ok p := ht
      simp only [Job.start, ht, Job.orStop]
    rw [e]
    exact hmk _ fun fs1 h => by simp only [Job.halt, h, begun]
  | addRecord b r =>
    have e : Job.start db c (.addRecord b r) = .openMake p (Job.orStop fun l => .append l (r.marshal c) (.done (.ok .done))) := by
      have ht : getBoardArticlesDirectoryPath db.home b = .ok p := ht
      simp only [Job.start, ht, Job.orStop]
    rw [e]
    exact hmk _ fun fs1 h => by simp only [Job.halt, h, begun]
  | writeArticle b f x =>
    have e : Job.start db c (.writeArticle b f x) = .openMake p (Job.orStop fun l => .put l x (.done (.ok .done))) := by
      have ht : getBoardArticleFilePath db.home b f = .ok p := ht
      simp only [Job.start, ht, Job.orStop]
    rw [e]
    exact hmk _ fun fs1 h => by simp only [Job.halt, h, begun, writeAt_start]
  | appendArticle b f x =>
    have e : Job.start db c (.appendArticle b f x) = .openWrite p (Job.orStop fun l => .append l x (.done (.ok .done))) := by
      have ht : getBoardArticleFilePath db.home b f = .ok p := ht
      simp only [Job.start, ht, Job.orStop]
    have h : fs.get l = some (.file old) := by
      rcases hl with h | ⟨_, _, h⟩
      · exact h
      · exact h.elim
    rw [e]
    simp only [Job.play, Job.step, Job.opened, hlk, Res.ok_bind, h, Job.orStop, Job.halt]
    exact same_refl _
  | writeDraft u d x =>
    have e : Job.start db c (.writeDraft u d x) = .openTrunc p (Job.orStop fun l => .put l x (.done (.ok .done))) := by
      have ht : getUserDraftPath db.home u d = .ok p := ht
      simp only [Job.start, ht, Job.orStop]
    have h : (fs.set l (.file [])).get l = some (.file []) := by rw [FS.get_set hroot, if_pos rfl]
    rw [e]
    simp only [Job.play, Job.step, hoc, Job.orStop, Job.halt, h, begun, writeAt_start, List.drop_nil, List.append_nil]
    intro q
    rw [FS.get_set hroot, FS.get_set hroot]
    by_cases hq : q = l
    · rw [if_pos hq, FS.get_set hroot, if_pos hq]
    · simp only [FS.get_set hroot, if_neg hq]
  | _ => cases ht

/-- **C121, the exact law.** These are exactly the disks that a stop can leave. -/
theorem C121_exact (db : DB) (c : Codec) (fs : FS) (op : Call) (D : FS) :
    (∃ ns k, Same D (op.stopped db c fs ns k)) ↔ Left db c fs op D := by
  constructor
  · rintro ⟨ns, k, h⟩
    rcases C121_left db c fs op ns k with h1 | h1 | ⟨p, l, old, k', h1, h2, h3, h4, h5⟩
    · exact Or.inl fun q => (h q).trans (h1 q)
    · exact Or.inr (Or.inl fun q => (h q).trans (h1 q))
    · exact Or.inr (Or.inr ⟨p, l, old, k', h1, h2, h3, (h l).trans h4, fun q hq => (h q).trans (h5 q hq)⟩)
  · rintro (h | h | ⟨p, l, old, k, h1, h2, h3, h4, h5⟩)
    · exact ⟨[], 0, fun q => (h q).trans (by rw [Call.stopped, Job.play, start_halt])⟩
    · by_cases hd : (op.exec db c fs).2 = .diverge
      · refine ⟨[], 0, fun q => (h q).trans ?_⟩
        rw [Call.stopped, Job.play, start_halt, exec_diverge hd]
      · obtain ⟨m, hm⟩ := C120_alone db c fs op hd
        obtain ⟨fs', e, hq⟩ := hm (List.replicate m 0) (by simp)
        refine ⟨List.replicate m 0, 0, fun q => (h q).trans ?_⟩
        rw [Call.stopped, e, halt_done, hq]
    · refine ⟨[0], k, fun q => ?_⟩
      have hroot : l ≠ [] := FS.ne_root (fs := fs) (by rcases h3 with h | ⟨h, _⟩ <;> rw [h] <;> simp)
      rw [stopped_begun k h1 h2 h3 q, FS.get_set hroot]
      by_cases hq : q = l
      · rw [if_pos hq, hq, h4]
      · rw [if_neg hq, h5 q (by simpa using hq)]

/-- A call that is interrupted has not happened, or has happened. -/
def Spec.StopsClean (op : Call) : Prop :=
  ∀ (db : DB) (c : Codec) (fs : FS) (ns : List Nat) (k : Nat), Same (op.stopped db c fs ns k) fs ∨ Same (op.stopped db c fs ns k) (op.exec db c fs).1

/-- **C121, calls that have happened or not.** Reading, claiming a name and deleting a draft have happened or not, wherever the machine stops. -/
theorem C121_clean (op : Call) (h : onlyReads op ∨ (∃ b o d t draw fuel, op = .createArticle b o d t draw fuel) ∨ ∃ u d, op = .deleteDraft u d) :
    StopsClean op := by
  intro db c fs ns k
  rcases C121_left db c fs op ns k with h1 | h1 | ⟨p, _, _, _, h1, _⟩
  · exact Or.inl h1
  · exact Or.inr h1
  · rcases h with h | ⟨_, _, _, _, _, _, rfl⟩ | ⟨_, _, rfl⟩
    · cases op with
      | addBoard => exact h.elim
      | addRecord => exact h.elim
      | writeArticle => exact h.elim
      | appendArticle => exact h.elim
      | writeDraft => exact h.elim
      | _ => cases h1
    · cases h1
    · cases h1

/-- **C121, not every call is like that:** a draft that is saved again is first emptied; if the machine stops then, the old text and the new one are lost. -/
theorem C121_atomic_refuted : ¬ ∀ op, StopsClean op := by
  intro h
  have := h (.writeDraft (ascii "Ab") (ascii "1") (ascii "new")) sampleDB asciiCodec draftFS [0] 0
  rcases this with h | h
  · exact absurd (h (at_ sampleDB oldDraft)) (by decide +kernel)
  · exact absurd (h (at_ sampleDB oldDraft)) (by decide +kernel)

/-- **C121, drafts.** Whenever an existing draft can be saved again, there is a moment at which a stop leaves an empty draft. -/
theorem C121_draft_lost (db : DB) (c : Codec) (fs fs' : FS) (u d x : Bytes) (h : db.writeUserDraft fs u d x = .ok fs') :
    ∃ ns k, db.getUserDraft ((Call.writeDraft u d x).stopped db c fs ns k) u d = .ok [] := by
  unfold DB.writeUserDraft at h
  obtain ⟨p, hp, h⟩ := Res.bind_eq_ok.mp h
  unfold FS.writeFile at h
  obtain ⟨⟨l, old⟩, ho, h⟩ := Res.bind_eq_ok.mp h
  obtain ⟨hlk, hl, hd⟩ := FS.openCreate_ok ho
  have hroot := FS.ne_root hl
  have hold : fs.get l = some (.file old) ∨ fs.get l = none ∧ old = [] ∧ makes (.writeDraft u d x) := by
    unfold fileAt at hd
    cases e : fs.get l with
    | none => rw [e] at hd; exact Or.inr ⟨rfl, hd, trivial⟩
    | some nd =>
      cases nd with
      | dir => exact absurd e hl
      | file y => rw [e] at hd; left; rw [hd]; rfl
  have hs := stopped_begun (c := c) 0 (show target db (.writeDraft u d x) = .ok p from hp) hlk hold
  refine ⟨[0], 0, ?_⟩
  have hlk' : ((Call.writeDraft u d x).stopped db c fs [0] 0).lookup db.cwd p = .ok l :=
    FS.lookup_mono (fun q hq => by
      rw [hs q, FS.get_set hroot]
      by_cases e : q = l
      · rw [e] at hq; exact absurd hq hl
      · rw [if_neg e]; exact hq) hlk
  have hg : ((Call.writeDraft u d x).stopped db c fs [0] 0).get l = some (.file []) := by
    rw [hs l, FS.get_set hroot, if_pos rfl]; rfl
  simp only [DB.getUserDraft, hp, Res.ok_bind, FS.statOk, hlk', hg, Option.isSome_some, if_true, FS.readFile]

/-! ## Examples -/

/-- Three bytes of the new text are on the disk. -/
example : fileAt ((Call.writeDraft (ascii "Ab") (ascii "1") (ascii "newer")).stopped sampleDB asciiCodec draftFS [0] 3) (at_ sampleDB oldDraft) =
    some (ascii "new") := by decide +kernel
example : Left sampleDB asciiCodec draftFS (.writeDraft (ascii "Ab") (ascii "1") (ascii "newer"))
    (draftFS.set (at_ sampleDB oldDraft) (.file (ascii "new"))) :=
  Or.inr (Or.inr ⟨_, at_ sampleDB oldDraft, ascii "old", 3, rfl, by decide +kernel, Or.inl (by decide +kernel), by decide +kernel,
    set_except (by decide +kernel) _⟩)
/-- Not every disk can be left. -/
example : ¬ Left sampleDB asciiCodec draftFS (.writeDraft (ascii "Ab") (ascii "1") (ascii "newer"))
    (draftFS.set (at_ sampleDB oldDraft) (.file (ascii "wen"))) := by
  rintro (h | h | ⟨p, l, old, k, h1, h2, h3, h4, h5⟩)
  · exact absurd (h (at_ sampleDB oldDraft)) (by decide +kernel)
  · exact absurd (h (at_ sampleDB oldDraft)) (by decide +kernel)
  · have hp : p = ascii "/bbs/home/A/Ab/buf.1" := (Res.ok.inj h1).symm
    subst hp
    have hl : l = at_ sampleDB oldDraft := by
      have : draftFS.lookup sampleDB.cwd (ascii "/bbs/home/A/Ab/buf.1") = .ok (at_ sampleDB oldDraft) := by decide +kernel
      exact Res.ok.inj (h2.symm.trans this)
    subst hl
    have e : (draftFS.set (at_ sampleDB oldDraft) (.file (ascii "wen"))).get (at_ sampleDB oldDraft) = some (.file (ascii "wen")) := by decide +kernel
    rw [e] at h4
    have h4 : ascii "wen" = (ascii "newer").take k := Node.file.inj (Option.some.inj h4)
    match k with
    | 0 => exact absurd h4 (by decide)
    | k + 1 => exact absurd (congrArg List.head? h4) (by simp [ascii])
example : onlyReads (.readDraft (ascii "Ab") (ascii "1")) := trivial
example : ∃ fs', sampleDB.writeUserDraft draftFS (ascii "Ab") (ascii "1") (ascii "newer") = .ok fs' := ⟨_, rfl⟩

end Verif
