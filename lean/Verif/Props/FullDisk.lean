import Verif.Model.FullDisk
import Verif.Props.Stopped
/-!
# C127: a call that fails for want of space has changed nothing
-/

namespace Verif
open Spec

/-! ## What is claimed -/

/-- What a call writes to its file. -/
def Spec.payload (c : Codec) : Call → Bytes
  | .addBoard r => r.marshal c
  | .addRecord _ r => r.marshal c
  | .writeArticle _ _ x => x
  | .appendArticle _ _ x => x
  | .writeDraft _ _ x => x
  | _ => []

/-- The full claim of C127: a call that answers with an error has changed nothing. -/
def Spec.FailsClean : Prop :=
  ∀ (db : DB) (c : Codec) (fs : FS) (op : Call) (rs : List (Nat × Option Nat)) (D : FS) (e : String),
    op.inRoom db c fs rs = (D, some (.err e)) → Same D fs

/-- A disk that is left for want of space: the file could not be made, or the first bytes of what the call writes are in it, but not all. -/
def Spec.FullLeft (db : DB) (c : Codec) (fs : FS) (op : Call) (D : FS) : Prop :=
  ∃ p l, target db op = .ok p ∧ fs.lookup db.cwd p = .ok l ∧
    ((fs.get l = none ∧ makes op ∧ Same D fs) ∨
     ∃ old k, k < (payload c op).length ∧ (fs.get l = some (.file old) ∨ fs.get l = none ∧ old = [] ∧ makes op) ∧
       D.get l = some (.file (begun c k old op)) ∧ SameExcept fs D [l])

/-! ## Steps that fail -/

/-- A client that does not go on when there is no space. -/
def Resigns : Job → Prop
  | .done _ => True
  | .stat _ k => ∀ b, Resigns (k b)
  | .openRead _ k => ∀ r, Resigns (k r)
  | .openWrite _ k => ∀ r, Resigns (k r)
  | .openMake _ k => k (.err Job.noSpace) = .done (.err Job.noSpace) ∧ ∀ r, Resigns (k r)
  | .openTrunc _ k => k (.err Job.noSpace) = .done (.err Job.noSpace) ∧ ∀ r, Resigns (k r)
  | .openExcl _ _ => False
  | .read _ _ _ _ k => ∀ r, Resigns (k r)
  | .append _ _ k => Resigns k
  | .put _ _ k => Resigns k
  | .unlink _ k => ∀ r, Resigns (k r)

/-- The next step fails if there is room for `r` bytes only. -/
def Refuses (cwd : Path) (fs : FS) (r : Nat) : Job → Prop
  | .openMake p _ => ∃ l d, fs.openCreate cwd p = .ok (l, d) ∧ fs.get l = none
  | .openTrunc p _ => ∃ l d, fs.openCreate cwd p = .ok (l, d) ∧ fs.get l = none
  | .append _ bs _ => r < bs.length
  | .put _ bs _ => r < bs.length
  | _ => False

theorem resigns_step {cwd : Path} {fs : FS} {j : Job} (h : Resigns j) (n : Nat) : Resigns (j.step cwd fs n).2 := by
  cases j with
  | done r => exact h
  | stat p k => exact h _
  | openRead p k => exact h _
  | openWrite p k => exact h _
  | openMake p k => simp only [Job.step]; split <;> exact h.2 _
  | openTrunc p k => simp only [Job.step]; split <;> exact h.2 _
  | openExcl p k => exact h.elim
  | read l size got pos k =>
    simp only [Job.step]
    split
    · split
      · exact h
      · exact h _
    · split
      · exact h _
      · exact h
    · exact h _
  | append l bs k => simp only [Job.step]; split <;> exact h
  | put l bs k => simp only [Job.step]; split <;> exact h
  | unlink p k => simp only [Job.step]; split <;> exact h _

theorem stepIn_some {cwd : Path} {fs : FS} {j : Job} (h : Resigns j) (n r : Nat) :
    (Refuses cwd fs r j ∧ j.stepIn cwd fs n (some r) = (j.halt fs r, .done (.err Job.noSpace))) ∨
    j.stepIn cwd fs n (some r) = j.step cwd fs n := by
  cases j with
  | openMake p k =>
    simp only [Job.stepIn]
    cases ho : fs.openCreate cwd p with
    | ok x =>
      obtain ⟨l, d⟩ := x
      simp only [Job.step, ho]
      cases hg : fs.get l with
      | none => left; exact ⟨⟨l, d, ho, hg⟩, by rw [if_pos (by rfl), h.1]; rfl⟩
      | some x => right; rfl
    | _ => right; rfl
  | openTrunc p k =>
    simp only [Job.stepIn]
    cases ho : fs.openCreate cwd p with
    | ok x =>
      obtain ⟨l, d⟩ := x
      simp only
      cases hg : fs.get l with
      | none => left; exact ⟨⟨l, d, ho, hg⟩, by rw [if_pos (by rfl), h.1]; rfl⟩
      | some x => right; rfl
    | _ => right; rfl
  | append l bs k =>
    simp only [Job.stepIn]
    by_cases hr : r < bs.length
    · left; exact ⟨hr, by rw [if_pos hr]⟩
    · right; rw [if_neg hr]
  | put l bs k =>
    simp only [Job.stepIn]
    by_cases hr : r < bs.length
    · left; exact ⟨hr, by rw [if_pos hr]⟩
    · right; rw [if_neg hr]
  | openExcl p k => exact h.elim
  | _ => right; rfl

theorem playIn_done (cwd : Path) (rs : List (Nat × Option Nat)) (fs : FS) (r : Res Answer) : Job.playIn cwd rs fs (.done r) = (fs, .done r) := by
  induction rs with
  | nil => rfl
  | cons x rs ih => obtain ⟨n, room⟩ := x; cases room <;> exact ih

/-- A run on a full disk is a run with enough room, or one up to a step that fails. -/
theorem playIn_split (cwd : Path) (rs : List (Nat × Option Nat)) : ∀ (fs : FS) (j : Job), Resigns j →
    (∃ ns, Job.playIn cwd rs fs j = Job.play cwd ns fs j) ∨
    ∃ ns r, Refuses cwd (Job.play cwd ns fs j).1 r (Job.play cwd ns fs j).2 ∧
      Job.playIn cwd rs fs j = ((Job.play cwd ns fs j).2.halt (Job.play cwd ns fs j).1 r, .done (.err Job.noSpace)) := by
  induction rs with
  | nil => intro fs j _; exact .inl ⟨[], rfl⟩
  | cons x rs ih =>
    intro fs j h
    obtain ⟨n, room⟩ := x
    have go : j.stepIn cwd fs n room = j.step cwd fs n →
        (∃ ns, Job.playIn cwd ((n, room) :: rs) fs j = Job.play cwd ns fs j) ∨
        ∃ ns r, Refuses cwd (Job.play cwd ns fs j).1 r (Job.play cwd ns fs j).2 ∧
          Job.playIn cwd ((n, room) :: rs) fs j = ((Job.play cwd ns fs j).2.halt (Job.play cwd ns fs j).1 r, .done (.err Job.noSpace)) := by
      intro e
      rw [Job.playIn, e]
      rcases ih (j.step cwd fs n).1 (j.step cwd fs n).2 (resigns_step h n) with ⟨ns, h1⟩ | ⟨ns, r, h1, h2⟩
      · exact .inl ⟨n :: ns, h1⟩
      · exact .inr ⟨n :: ns, r, h1, h2⟩
    cases room with
    | none => exact go rfl
    | some r =>
      rcases stepIn_some (cwd := cwd) (fs := fs) h n r with ⟨h1, h2⟩ | h1
      · right
        refine ⟨[], r, h1, ?_⟩
        rw [Job.playIn, h2, playIn_done]
        rfl
      · exact go h1

/-! ## The calls -/

/-- The call is not one that looks for a free name. -/
def Spec.NoClaim (op : Call) : Prop := ∀ b o d t draw fuel, op ≠ .createArticle b o d t draw fuel

theorem resigns_looks {j : Job} (h : OnlyLooks j) : Resigns j := by
  induction j with
  | done r => trivial
  | stat p k ih => exact fun b => ih b (h b)
  | openRead p k ih => exact fun b => ih b (h b)
  | read l size got pos k ih => exact fun b => ih b (h b)
  | openWrite p k ih => exact h.elim
  | openMake p k => exact h.elim
  | openTrunc p k => exact h.elim
  | openExcl p k => exact h.elim
  | append l bs k => exact h.elim
  | put l bs k => exact h.elim
  | unlink p k => exact h.elim

theorem resigns_orStop {α : Type} {k : α → Job} (h : ∀ a, Resigns (k a)) (r : Res α) : Resigns (Job.orStop k r) := by
  cases r with
  | ok a => exact h a
  | _ => trivial

theorem resigns_start (db : DB) (c : Codec) {op : Call} (h : NoClaim op) : Resigns (Job.start db c op) := by
  by_cases ho : onlyReads op
  · exact resigns_looks (looks_start db c ho)
  have mk : ∀ w : Path → Job, (∀ l, Resigns (w l)) → ∀ p, Resigns (.openMake p (Job.orStop w)) := fun w hw p => ⟨rfl, fun x => resigns_orStop hw x⟩
  have mk' : ∀ w : Path → Job, (∀ l, Resigns (w l)) → ∀ p, Resigns (.openTrunc p (Job.orStop w)) := fun w hw p => ⟨rfl, fun x => resigns_orStop hw x⟩
  cases op with
  | addBoard r => simp only [Job.start]; generalize getBoardPath db.home = y; exact resigns_orStop (fun p => mk _ (fun l => by trivial) p) y
  | addRecord b r => simp only [Job.start]; exact resigns_orStop (fun p => mk _ (fun l => by trivial) p) _
  | writeArticle b f x => simp only [Job.start]; exact resigns_orStop (fun p => mk _ (fun l => by trivial) p) _
  | appendArticle b f x =>
    simp only [Job.start]
    refine resigns_orStop (fun p => ?_) _
    intro y
    exact resigns_orStop (fun l => by trivial) y
  | writeDraft u d x => simp only [Job.start]; exact resigns_orStop (fun p => mk' _ (fun l => by trivial) p) _
  | deleteDraft u d =>
    simp only [Job.start]
    refine resigns_orStop (fun p => ?_) _
    intro y
    exact resigns_orStop (fun l => by trivial) y
  | createArticle b o d t draw fuel => exact absurd rfl (h b o d t draw fuel)
  | _ => exact absurd trivial ho

/-- Where a call may fail for want of space: when it makes its file, or when it writes to it. -/
theorem refuses_at {db : DB} {c : Codec} {fs : FS} {op : Call} (h : NoClaim op) (ns : List Nat) (r : Nat)
    (hr : Refuses db.cwd (Job.play db.cwd ns fs (Job.start db c op)).1 r (Job.play db.cwd ns fs (Job.start db c op)).2) :
    ∃ p l, target db op = .ok p ∧ fs.lookup db.cwd p = .ok l ∧
      ((ns = [] ∧ fs.get l = none ∧ makes op) ∨
       ((∃ n, ns = [n]) ∧ r < (payload c op).length ∧ ∃ old, fs.get l = some (.file old) ∨ fs.get l = none ∧ old = [] ∧ makes op)) := by
  have looks : ∀ j, OnlyLooks j → ¬ Refuses db.cwd (Job.play db.cwd ns fs j).1 r (Job.play db.cwd ns fs j).2 := by
    intro j hj h
    have := (looks_play (cwd := db.cwd) ns (fs := fs) hj).2
    cases e : (Job.play db.cwd ns fs j).2 <;> rw [e] at this h <;> first | exact h.elim | exact this.elim
  have stopped : ∀ r' : Res Answer, ¬ Refuses db.cwd (Job.play db.cwd ns fs (.done r')).1 r (Job.play db.cwd ns fs (.done r')).2 := by
    intro r' h; rw [play_done] at h; exact h
  have wrote : ∀ (j : Job) (bs : Bytes) (fs1 : FS) (ns' : List Nat), (∀ n, (j.step db.cwd fs1 n).2 = .done (.ok .done)) →
      (∀ fs r, Refuses db.cwd fs r j → r < bs.length) →
      Refuses db.cwd (Job.play db.cwd ns' fs1 j).1 r (Job.play db.cwd ns' fs1 j).2 → ns' = [] ∧ r < bs.length := by
    intro j bs fs1 ns' h1 h2 h3
    cases ns' with
    | nil => exact ⟨rfl, h2 _ _ h3⟩
    | cons n ns' => rw [Job.play, h1, play_done] at h3; exact h3.elim
  have old : ∀ l, fs.get l ≠ some .dir → ∃ old, fs.get l = some (.file old) ∨ fs.get l = none ∧ old = [] := by
    intro l h
    cases e : fs.get l with
    | none => exact ⟨[], .inr ⟨rfl, rfl⟩⟩
    | some x => cases x with
      | dir => exact absurd e h
      | file d => exact ⟨d, .inl rfl⟩
  have make : ∀ (w : Path → Job) (bs : Bytes) (p : Bytes), (∀ l fs1 n, ((w l).step db.cwd fs1 n).2 = .done (.ok .done)) →
      (∀ l fs r, Refuses db.cwd fs r (w l) → r < bs.length) → ∀ tr : Bool,
      Refuses db.cwd (Job.play db.cwd ns fs (if tr then .openTrunc p (Job.orStop w) else .openMake p (Job.orStop w))).1 r
        (Job.play db.cwd ns fs (if tr then .openTrunc p (Job.orStop w) else .openMake p (Job.orStop w))).2 →
      ∃ l, fs.lookup db.cwd p = .ok l ∧ ((ns = [] ∧ fs.get l = none) ∨ ((∃ n, ns = [n]) ∧ r < bs.length ∧ ∃ old, fs.get l = some (.file old) ∨ fs.get l = none ∧ old = [])) := by
    intro w bs p h1 h2 tr h3
    cases ns with
    | nil =>
      have : ∃ l d, fs.openCreate db.cwd p = .ok (l, d) ∧ fs.get l = none := by cases tr <;> exact h3
      obtain ⟨l, d, h4, h5⟩ := this
      exact ⟨l, (FS.openCreate_ok h4).1, .inl ⟨rfl, h5⟩⟩
    | cons n ns =>
      cases ho : fs.openCreate db.cwd p with
      | ok x =>
        obtain ⟨l, d⟩ := x
        obtain ⟨h4, h5, _⟩ := FS.openCreate_ok ho
        have : ∃ fs1, Refuses db.cwd (Job.play db.cwd ns fs1 (w l)).1 r (Job.play db.cwd ns fs1 (w l)).2 := by
          cases tr <;> (simp only [Bool.false_eq_true, if_false, if_true, Job.play, Job.step, ho, Job.orStop] at h3; exact ⟨_, h3⟩)
        obtain ⟨fs1, h6⟩ := this
        obtain ⟨h7, h8⟩ := wrote (w l) bs fs1 ns (fun n => h1 l fs1 n) (h2 l) h6
        subst h7
        exact ⟨l, h4, .inr ⟨⟨n, rfl⟩, h8, old l h5⟩⟩
      | _ => cases tr <;> (simp only [Bool.false_eq_true, if_false, if_true, Job.play, Job.step, ho, Job.orStop, play_done] at h3; exact h3.elim)
  have app : ∀ (l : Path) (bs : Bytes) (fs1 : FS) (n : Nat), (Job.step db.cwd fs1 n (.append l bs (.done (.ok .done)))).2 = .done (.ok .done) := by
    intro l bs fs1 n; simp only [Job.step]; split <;> rfl
  have put : ∀ (l : Path) (bs : Bytes) (fs1 : FS) (n : Nat), (Job.step db.cwd fs1 n (.put l bs (.done (.ok .done)))).2 = .done (.ok .done) := by
    intro l bs fs1 n; simp only [Job.step]; split <;> rfl
  have fin : ∀ (op : Call) (p : Bytes), makes op → target db op = .ok p →
      (∃ l, fs.lookup db.cwd p = .ok l ∧ ((ns = [] ∧ fs.get l = none) ∨ ((∃ n, ns = [n]) ∧ r < (payload c op).length ∧
        ∃ old, fs.get l = some (.file old) ∨ fs.get l = none ∧ old = []))) →
      ∃ p l, target db op = .ok p ∧ fs.lookup db.cwd p = .ok l ∧ ((ns = [] ∧ fs.get l = none ∧ makes op) ∨
       ((∃ n, ns = [n]) ∧ r < (payload c op).length ∧ ∃ old, fs.get l = some (.file old) ∨ fs.get l = none ∧ old = [] ∧ makes op)) := by
    rintro op p hm ht ⟨l, h1, ⟨h2, h3⟩ | ⟨h2, h3, old, h4⟩⟩
    · exact ⟨p, l, ht, h1, .inl ⟨h2, h3, hm⟩⟩
    · refine ⟨p, l, ht, h1, .inr ⟨h2, h3, old, ?_⟩⟩
      rcases h4 with h4 | ⟨h4, h5⟩
      · exact .inl h4
      · exact .inr ⟨h4, h5, hm⟩
  by_cases ho : onlyReads op
  · exact absurd hr (looks _ (looks_start db c ho))
  cases op with
  | addBoard x =>
    cases hp : getBoardPath db.home with
    | ok p =>
      simp only [Job.start, hp, Job.orStop] at hr
      exact fin _ p trivial hp (make (fun l => .append l (x.marshal c) (.done (.ok .done))) (x.marshal c) p (fun l => app l _) (fun l fs r h => h) false hr)
    | _ => simp only [Job.start, hp, Job.orStop] at hr; exact absurd hr (stopped _)
  | addRecord b x =>
    cases hp : getBoardArticlesDirectoryPath db.home b with
    | ok p =>
      simp only [Job.start, hp, Job.orStop] at hr
      exact fin _ p trivial hp (make (fun l => .append l (x.marshal c) (.done (.ok .done))) (x.marshal c) p (fun l => app l _) (fun l fs r h => h) false hr)
    | _ => simp only [Job.start, hp, Job.orStop] at hr; exact absurd hr (stopped _)
  | writeArticle b f x =>
    cases hp : getBoardArticleFilePath db.home b f with
    | ok p =>
      simp only [Job.start, hp, Job.orStop] at hr
      exact fin _ p trivial hp (make (fun l => .put l x (.done (.ok .done))) x p (fun l => put l _) (fun l fs r h => h) false hr)
    | _ => simp only [Job.start, hp, Job.orStop] at hr; exact absurd hr (stopped _)
  | writeDraft b f x =>
    cases hp : getUserDraftPath db.home b f with
    | ok p =>
      simp only [Job.start, hp, Job.orStop] at hr
      exact fin _ p trivial hp (make (fun l => .put l x (.done (.ok .done))) x p (fun l => put l _) (fun l fs r h => h) true hr)
    | _ => simp only [Job.start, hp, Job.orStop] at hr; exact absurd hr (stopped _)
  | appendArticle b f x =>
    cases hp : getBoardArticleFilePath db.home b f with
    | ok p =>
      simp only [Job.start, hp, Job.orStop] at hr
      cases ns with
      | nil => exact hr.elim
      | cons n ns =>
        simp only [Job.play, Job.step] at hr
        cases ho : Job.opened fs db.cwd p true with
        | ok l =>
          rw [ho] at hr
          obtain ⟨h1, h2⟩ := wrote (.append l x (.done (.ok .done))) x fs ns (app l x fs) (fun fs r h => h) hr
          subst h1
          unfold Job.opened at ho
          obtain ⟨l', h3, h4⟩ := Res.bind_eq_ok.mp ho
          cases hg : fs.get l' with
          | none => rw [hg] at h4; cases h4
          | some y =>
            rw [hg] at h4
            cases y with
            | dir => cases h4
            | file d =>
              cases h4
              exact ⟨p, l, hp, h3, .inr ⟨⟨n, rfl⟩, h2, d, .inl hg⟩⟩
        | _ => rw [ho] at hr; simp only [Job.orStop, play_done] at hr; exact hr.elim
    | _ => simp only [Job.start, hp, Job.orStop] at hr; exact absurd hr (stopped _)
  | deleteDraft u d =>
    exfalso
    cases hp : getUserDraftPath db.home u d with
    | ok p =>
      simp only [Job.start, hp, Job.orStop] at hr
      cases ns with
      | nil => exact hr.elim
      | cons n ns =>
        simp only [Job.play, Job.step] at hr
        split at hr <;> simp only [Job.orStop, play_done] at hr <;> exact hr.elim
    | _ => simp only [Job.start, hp, Job.orStop] at hr; exact absurd hr (stopped _)
  | createArticle b o d t draw fuel => exact absurd rfl (h b o d t draw fuel)
  | _ => exact absurd trivial ho

theorem play_one (cwd : Path) (fs : FS) (n m : Nat) {j : Job} (h : ∀ l size got pos k, j ≠ .read l size got pos k) :
    Job.play cwd [n] fs j = Job.play cwd [m] fs j := by
  cases j with
  | read l size got pos k => exact absurd rfl (h l size got pos k)
  | _ => rfl

theorem start_not_read (db : DB) (c : Codec) (op : Call) : ∀ l size got pos k, Job.start db c op ≠ .read l size got pos k := by
  intro l size got pos k h
  have go : ∀ (w : Bytes → Job) (x : Res Bytes), (∀ p, w p ≠ .read l size got pos k) → Job.orStop w x ≠ .read l size got pos k := by
    intro w x hw
    cases x with
    | ok p => exact hw p
    | _ => intro h; cases h
  cases op with
  | readUsers => exact go (fun p => Job.readList p 512 (Userec.unmarshal c) fun l => .done (.ok (.users l))) (getPasswdsPath db.home) (fun p h => by cases h) h
  | readBoards => exact go (fun p => Job.readList p 256 (BoardHeader.unmarshal c) fun l => .done (.ok (.boards l))) (getBoardPath db.home) (fun p h => by cases h) h
  | addBoard r => exact go (fun p => .openMake p (Job.orStop fun l => .append l (r.marshal c) (.done (.ok .done)))) (getBoardPath db.home) (fun p h => by cases h) h
  | createArticle b o d t draw fuel =>
    cases fuel with
    | zero => cases h
    | succ f => exact go _ _ (fun p h => by cases h) h
  | _ => exact go _ _ (fun p h => by cases h) h

/-- What the disk has after a step that fails. -/
theorem refused_left {db : DB} {c : Codec} {fs : FS} {op : Call} (h : NoClaim op) (ns : List Nat) (r : Nat)
    (hr : Refuses db.cwd (Job.play db.cwd ns fs (Job.start db c op)).1 r (Job.play db.cwd ns fs (Job.start db c op)).2) :
    FullLeft db c fs op (op.stopped db c fs ns r) := by
  obtain ⟨p, l, h1, h2, ⟨h3, h4, h5⟩ | ⟨⟨n, h3⟩, h4, old, h5⟩⟩ := refuses_at h ns r hr
  · subst h3
    exact ⟨p, l, h1, h2, .inl ⟨h4, h5, by rw [Call.stopped, Job.play, start_halt]; exact same_refl _⟩⟩
  · subst h3
    have e : op.stopped db c fs [n] r = op.stopped db c fs [0] r := by
      unfold Call.stopped; rw [play_one db.cwd fs n 0 (start_not_read db c op)]
    have hroot : l ≠ [] := FS.ne_root (fs := fs) (by rcases h5 with h | ⟨h, _⟩ <;> rw [h] <;> simp)
    have hs := stopped_begun (c := c) r h1 h2 h5
    refine ⟨p, l, h1, h2, .inr ⟨old, r, h4, h5, ?_, fun q hq => ?_⟩⟩
    · rw [e, hs l, FS.get_set hroot, if_pos rfl]
    · rw [e, hs q, FS.get_set hroot, if_neg (by simpa using hq)]

/-! ## The claims -/

theorem inRoom_eq {db : DB} {c : Codec} {fs D : FS} {op : Call} {rs : List (Nat × Option Nat)} {r : Res Answer} :
    op.inRoom db c fs rs = (D, some r) ↔ Job.playIn db.cwd rs fs (Job.start db c op) = (D, .done r) := by
  unfold Call.inRoom
  generalize Job.playIn db.cwd rs fs (Job.start db c op) = x
  obtain ⟨a, j⟩ := x
  cases j <;> simp

/-- A run that has its answer has the one of the call, and its disk. -/
theorem play_answer {db : DB} {c : Codec} {fs D : FS} {op : Call} {ns : List Nat} {r : Res Answer}
    (h : Job.play db.cwd ns fs (Job.start db c op) = (D, .done r)) : r = (op.exec db c fs).2 ∧ Same D (op.exec db c fs).1 := by
  by_cases hd : (op.exec db c fs).2 = .diverge
  · obtain ⟨h1, h2⟩ := C120_hangs db c fs op hd ns
    rw [h] at h1 h2
    exact ⟨(h2 r rfl).trans hd.symm, by rw [exec_diverge hd, ← h1]; exact same_refl _⟩
  · obtain ⟨m, hm⟩ := C120_alone db c fs op hd
    obtain ⟨fs', h1, h2⟩ := hm (ns ++ List.replicate m 0) (by simp)
    have : ∀ ns' fs j, Job.play db.cwd (ns' ++ List.replicate m 0) fs j =
        Job.play db.cwd (List.replicate m 0) (Job.play db.cwd ns' fs j).1 (Job.play db.cwd ns' fs j).2 := by
      intro ns'
      induction ns' with
      | nil => intro fs j; rfl
      | cons n ns' ih => intro fs j; exact ih _ _
    rw [this, h, play_done] at h1
    cases h1
    exact ⟨rfl, h2⟩

/-- **C127, what a call does when there may be no space.** It does and answers what it would with enough room, or it answers that there is none;
then its file could not be made, or has a beginning of what should be written to it, and nothing else has changed. -/
theorem C127_answers (db : DB) (c : Codec) (fs : FS) (op : Call) (hop : NoClaim op) (rs : List (Nat × Option Nat)) (D : FS) (r : Res Answer)
    (h : op.inRoom db c fs rs = (D, some r)) :
    (r = (op.exec db c fs).2 ∧ Same D (op.exec db c fs).1) ∨ (r = .err "no space left on device" ∧ FullLeft db c fs op D) := by
  rw [inRoom_eq] at h
  rcases playIn_split db.cwd rs fs _ (resigns_start db c hop) with ⟨ns, h1⟩ | ⟨ns, k, h1, h2⟩
  · exact .inl (play_answer (h1.symm.trans h))
  · rw [h] at h2
    cases h2
    exact .inr ⟨rfl, refused_left hop ns k h1⟩

/-- **C127, success is success.** A call that answers without an error has done everything it should, however little room there was meanwhile. -/
theorem C127_success (db : DB) (c : Codec) (fs : FS) (op : Call) (hop : NoClaim op) (rs : List (Nat × Option Nat)) (D : FS) (a : Answer)
    (h : op.inRoom db c fs rs = (D, some (.ok a))) : (op.exec db c fs).2 = .ok a ∧ Same D (op.exec db c fs).1 := by
  rcases C127_answers db c fs op hop rs D _ h with ⟨h1, h2⟩ | ⟨h1, _⟩
  · exact ⟨h1.symm, h2⟩
  · cases h1


/-- The write of a call that has its file. -/
theorem play_writes {db : DB} {c : Codec} {fs : FS} {op : Call} {p : Bytes} {l : Path} {old : Bytes} (ht : target db op = .ok p)
    (hlk : fs.lookup db.cwd p = .ok l) (hl : fs.get l = some (.file old) ∨ fs.get l = none ∧ old = [] ∧ makes op) :
    (Job.play db.cwd [0] fs (Job.start db c op)).2 = .append l (payload c op) (.done (.ok .done)) ∨
    (Job.play db.cwd [0] fs (Job.start db c op)).2 = .put l (payload c op) (.done (.ok .done)) := by
  have hoc : ∃ d, fs.openCreate db.cwd p = .ok (l, d) := by
    unfold FS.openCreate; rw [hlk, Res.ok_bind]
    rcases hl with h | ⟨h, _⟩ <;> rw [h] <;> exact ⟨_, rfl⟩
  obtain ⟨d, hoc⟩ := hoc
  cases op with
  | addBoard r =>
    left
    have ht : getBoardPath db.home = .ok p := ht
    simp only [Job.start, ht, Job.orStop, Job.play, Job.step, hoc, payload]
  | addRecord b r =>
    left
    have ht : getBoardArticlesDirectoryPath db.home b = .ok p := ht
    simp only [Job.start, ht, Job.orStop, Job.play, Job.step, hoc, payload]
  | writeArticle b f x =>
    right
    have ht : getBoardArticleFilePath db.home b f = .ok p := ht
    simp only [Job.start, ht, Job.orStop, Job.play, Job.step, hoc, payload]
  | appendArticle b f x =>
    left
    have ht : getBoardArticleFilePath db.home b f = .ok p := ht
    have h : fs.get l = some (.file old) := by
      rcases hl with h | ⟨_, _, h⟩
      · exact h
      · exact h.elim
    simp only [Job.start, ht, Job.orStop, Job.play, Job.step, Job.opened, hlk, Res.ok_bind, h, payload]
  | writeDraft u d x =>
    right
    have ht : getUserDraftPath db.home u d = .ok p := ht
    simp only [Job.start, ht, Job.orStop, Job.play, Job.step, hoc, payload]
  | _ => cases ht

/-- A call that cannot make its file. -/
theorem inRoom_refused {db : DB} {c : Codec} {fs : FS} {op : Call} {p : Bytes} {l : Path} (ht : target db op = .ok p)
    (hlk : fs.lookup db.cwd p = .ok l) (hl : fs.get l = none) (hm : makes op) :
    op.inRoom db c fs [(0, some 0)] = (fs, some (.err Job.noSpace)) := by
  have hoc : fs.openCreate db.cwd p = .ok (l, []) := by
    unfold FS.openCreate; rw [hlk, Res.ok_bind, hl]
  rw [inRoom_eq]
  cases op with
  | addBoard r =>
    have ht : getBoardPath db.home = .ok p := ht
    simp [Job.start, ht, Job.orStop, Job.playIn, Job.stepIn, hoc, hl]
  | addRecord b r =>
    have ht : getBoardArticlesDirectoryPath db.home b = .ok p := ht
    simp [Job.start, ht, Job.orStop, Job.playIn, Job.stepIn, hoc, hl]
  | writeArticle b f x =>
    have ht : getBoardArticleFilePath db.home b f = .ok p := ht
    simp [Job.start, ht, Job.orStop, Job.playIn, Job.stepIn, hoc, hl]
  | appendArticle b f x => exact hm.elim
  | writeDraft u d x =>
    have ht : getUserDraftPath db.home u d = .ok p := ht
    simp [Job.start, ht, Job.orStop, Job.playIn, Job.stepIn, hoc, hl]
  | _ => cases ht

/-- **C127, the exact law.** For a call that would succeed with enough room, these are exactly the disks on which it can fail. -/
theorem C127_exact (db : DB) (c : Codec) (fs : FS) (op : Call) (hop : NoClaim op) (a : Answer) (ha : (op.exec db c fs).2 = .ok a) (D : FS) :
    (∃ rs D' e, op.inRoom db c fs rs = (D', some (.err e)) ∧ Same D D') ↔ FullLeft db c fs op D := by
  constructor
  · rintro ⟨rs, D', e, h, hs⟩
    rcases C127_answers db c fs op hop rs D' _ h with ⟨h1, _⟩ | ⟨_, p, l, h1, h2, ⟨h3, h4, h5⟩ | ⟨old, k, h3, h4, h5, h6⟩⟩
    · rw [ha] at h1; cases h1
    · exact ⟨p, l, h1, h2, .inl ⟨h3, h4, fun q => (hs q).trans (h5 q)⟩⟩
    · exact ⟨p, l, h1, h2, .inr ⟨old, k, h3, h4, (hs l).trans h5, fun q hq => (hs q).trans (h6 q hq)⟩⟩
  · rintro ⟨p, l, h1, h2, ⟨h3, h4, h5⟩ | ⟨old, k, h3, h4, h5, h6⟩⟩
    · exact ⟨_, _, _, inRoom_refused h1 h2 h3 h4, h5⟩
    · refine ⟨[(0, none), (0, some k)], op.stopped db c fs [0] k, Job.noSpace, ?_, fun q => ?_⟩
      · rw [inRoom_eq]
        have e : Job.playIn db.cwd [(0, none), (0, some k)] fs (Job.start db c op) =
            Job.stepIn db.cwd (Job.play db.cwd [0] fs (Job.start db c op)).1 0 (some k) (Job.play db.cwd [0] fs (Job.start db c op)).2 := rfl
        rw [e, Call.stopped]
        rcases play_writes (c := c) h1 h2 h4 with h | h <;> rw [h] <;> simp only [Job.stepIn, if_pos h3]
      · have hroot : l ≠ [] := FS.ne_root (fs := fs) (by rcases h4 with h | ⟨h, _⟩ <;> rw [h] <;> simp)
        rw [stopped_begun k h1 h2 h4 q, FS.get_set hroot]
        by_cases hq : q = l
        · rw [if_pos hq, hq, h5]
        · rw [if_neg hq, h6 q (by simpa using hq)]

/-- **C127, what holds.** A failed call has changed nothing if it could not make its file; and in any case it has changed its own file only. -/
theorem C127_own_file_partial (db : DB) (c : Codec) (fs : FS) (op : Call) (hop : NoClaim op) (a : Answer) (ha : (op.exec db c fs).2 = .ok a)
    (rs : List (Nat × Option Nat)) (D : FS) (e : String) (h : op.inRoom db c fs rs = (D, some (.err e))) :
    ∃ p l, target db op = .ok p ∧ fs.lookup db.cwd p = .ok l ∧ SameExcept fs D [l] ∧ (D.get l = none → Same D fs) := by
  obtain ⟨p, l, h1, h2, ⟨h3, h4, h5⟩ | ⟨old, k, h3, h4, h5, h6⟩⟩ := (C127_exact db c fs op hop a ha D).mp ⟨rs, D, e, h, same_refl _⟩
  · exact ⟨p, l, h1, h2, fun q _ => h5 q, fun _ => h5⟩
  · exact ⟨p, l, h1, h2, h6, fun hn => (by rw [h5] at hn; cases hn)⟩

/-- **C127, drafts.** Whenever an existing draft can be saved again, a full disk makes the call fail with an empty draft left. -/
theorem C127_draft_lost (db : DB) (c : Codec) (fs fs' : FS) (u d x old : Bytes) (h : db.writeUserDraft fs u d x = .ok fs') (hx : x ≠ [])
    (p : Bytes) (l : Path) (hp : getUserDraftPath db.home u d = .ok p) (hl : fs.lookup db.cwd p = .ok l) (hg : fs.get l = some (.file old)) :
    ∃ rs D, (Call.writeDraft u d x).inRoom db c fs rs = (D, some (.err "no space left on device")) ∧ D.get l = some (.file []) ∧
      SameExcept fs D [l] := by
  have ha : ((Call.writeDraft u d x).exec db c fs).2 = .ok .done := by simp only [Call.exec, h, writes]
  have hroot : l ≠ [] := FS.ne_root (fs := fs) (by rw [hg]; simp)
  obtain ⟨rs, D', e, h1, h2⟩ := (C127_exact db c fs (.writeDraft u d x) (fun _ _ _ _ _ _ h => by cases h) _ ha (fs.set l (.file []))).mpr
    ⟨p, l, hp, hl, .inr ⟨old, 0, List.length_pos_iff.mpr hx, .inl hg, by rw [FS.get_set hroot, if_pos rfl]; rfl, set_except hroot _⟩⟩
  rcases C127_answers db c fs _ (fun _ _ _ _ _ _ h => by cases h) rs D' _ h1 with ⟨h3, _⟩ | ⟨h3, _⟩
  · rw [ha] at h3; cases h3
  · rw [h3] at h1
    refine ⟨rs, D', h1, (h2 l).symm.trans (by rw [FS.get_set hroot, if_pos rfl]), fun q hq => (h2 q).symm.trans ?_⟩
    rw [FS.get_set hroot, if_neg (by simpa using hq)]

/-- **C127 is false of the code**: a draft that is saved again on a full disk is gone, and the call says so only afterwards. -/
theorem C127_refuted : ¬ Spec.FailsClean := by
  intro h
  obtain ⟨rs, D, h1, h2, _⟩ := C127_draft_lost sampleDB asciiCodec draftFS _ (ascii "Ab") (ascii "1") (ascii "new") (ascii "old") rfl (by decide) _
    (at_ sampleDB oldDraft) rfl (by decide +kernel) (by decide +kernel)
  have := h _ _ _ _ _ _ _ h1 (at_ sampleDB oldDraft)
  rw [h2] at this
  exact absurd this (by decide +kernel)

/-! ## Claiming a name -/

theorem tryNames_in (db : DB) (fs : FS) (b o d t : Bytes) (draw : Nat → Int × Fin 4096) (fuel : Nat) :
    ∀ (k : Nat) (rs : List (Nat × Option Nat)) (D : FS) (r : Res Answer),
    Job.playIn db.cwd rs fs (Job.tryNames db b o d t draw fuel k) = (D, .done r) →
    (r = .panic ∧ b = [] ∧ D = fs) ∨ (r = .diverge ∧ D = fs) ∨
    ∃ j, k ≤ j ∧ j < k + fuel ∧ ∃ p, getBoardArticleFilePath db.home b (DB.articleName (draw j).1 (draw j).2) = .ok p ∧
      fs.createExcl db.cwd p = .ok D ∧ r = .ok (.record (DB.newArticleRecord (DB.articleName (draw j).1 (draw j).2) o d t)) := by
  induction fuel with
  | zero =>
    intro k rs D r h
    rw [Job.tryNames, playIn_done] at h
    cases h
    exact .inr (.inl ⟨rfl, rfl⟩)
  | succ fuel ih =>
    intro k rs D r h
    have hn : ∀ rs, Job.playIn db.cwd rs fs (Job.tryNames db b o d t draw fuel (k + 1)) = (D, .done r) →
        (r = .panic ∧ b = [] ∧ D = fs) ∨ (r = .diverge ∧ D = fs) ∨
        ∃ j, k ≤ j ∧ j < k + (fuel + 1) ∧ ∃ p, getBoardArticleFilePath db.home b (DB.articleName (draw j).1 (draw j).2) = .ok p ∧
          fs.createExcl db.cwd p = .ok D ∧ r = .ok (.record (DB.newArticleRecord (DB.articleName (draw j).1 (draw j).2) o d t)) := by
      intro rs h
      rcases ih (k + 1) rs D r h with h1 | h1 | ⟨j, h1, h2, h3⟩
      · exact .inl h1
      · exact .inr (.inl h1)
      · exact .inr (.inr ⟨j, by omega, by omega, h3⟩)
    cases hb : b with
    | nil =>
      subst hb
      rw [Job.tryNames] at h
      simp only [getBoardArticleFilePath, firstByte] at h
      change Job.playIn db.cwd rs fs (.done .panic) = _ at h
      rw [playIn_done] at h
      cases h
      exact .inl ⟨rfl, rfl, rfl⟩
    | cons x b' =>
      rw [← hb]
      have hp := articlePath_ok (home := db.home) (board := b) (by rw [hb]; simp) (DB.articleName (draw k).1 (draw k).2)
      rw [Job.tryNames] at h
      simp only [hp, Job.orStop] at h
      cases rs with
      | nil => cases h
      | cons y rs =>
        obtain ⟨n, room⟩ := y
        cases room with
        | some z => exact hn rs h
        | none =>
          simp only [Job.playIn, Job.stepIn, Job.step] at h
          cases hc : fs.createExcl db.cwd (boardDir db.home b ++ slash :: DB.articleName (draw k).1 (draw k).2) with
          | ok fs1 =>
            simp only [hc, playIn_done] at h
            cases h
            exact .inr (.inr ⟨k, Nat.le_refl _, by omega, _, hp, hc, rfl⟩)
          | _ =>
            simp only [hc] at h
            exact hn rs h

/-- **C127, claiming a name.** It answers with a name whose file is new, and that file is all that has changed; or it crashes on an empty board name;
or it is still looking. It never answers that there is no space. -/
theorem C127_create (db : DB) (c : Codec) (fs : FS) (b o d t : Bytes) (draw : Nat → Int × Fin 4096) (fuel : Nat) (rs : List (Nat × Option Nat))
    (D : FS) (r : Res Answer) (h : (Call.createArticle b o d t draw fuel).inRoom db c fs rs = (D, some r)) :
    (r = .panic ∧ b = [] ∧ D = fs) ∨ (r = .diverge ∧ D = fs) ∨
    ∃ j p, j < fuel ∧ getBoardArticleFilePath db.home b (DB.articleName (draw j).1 (draw j).2) = .ok p ∧
      fs.createExcl db.cwd p = .ok D ∧ r = .ok (.record (DB.newArticleRecord (DB.articleName (draw j).1 (draw j).2) o d t)) := by
  rw [inRoom_eq] at h
  rcases tryNames_in db fs b o d t draw fuel 0 rs D r h with h1 | h1 | ⟨j, _, h2, p, h3, h4, h5⟩
  · exact .inl h1
  · exact .inr (.inl h1)
  · exact .inr (.inr ⟨j, p, by omega, h3, h4, h5⟩)

/-- **C127, a full disk is not noticed.** As long as the disk is full, the search for a free name goes on: there is no answer, whatever names are drawn. -/
theorem C127_create_hangs (db : DB) (c : Codec) (fs : FS) (b o d t : Bytes) (hb : b ≠ []) (draw : Nat → Int × Fin 4096) (fuel : Nat)
    (rs : List (Nat × Option Nat)) (hr : ∀ x ∈ rs, x.2 ≠ none) :
    (Call.createArticle b o d t draw fuel).inRoom db c fs rs = (fs, if rs.length < fuel then none else some .diverge) := by
  have go : ∀ (fuel k : Nat) (rs : List (Nat × Option Nat)), (∀ x ∈ rs, x.2 ≠ none) →
      Job.playIn db.cwd rs fs (Job.tryNames db b o d t draw fuel k) = (fs, Job.tryNames db b o d t draw (fuel - rs.length) (k + min fuel rs.length)) := by
    intro fuel
    induction fuel with
    | zero => intro k rs _; simp only [Job.tryNames, playIn_done, Nat.zero_sub]
    | succ fuel ih =>
      intro k rs h
      cases rs with
      | nil => rfl
      | cons y rs =>
        obtain ⟨n, room⟩ := y
        cases room with
        | none => exact absurd rfl (h (n, none) (by simp))
        | some z =>
          have := ih (k + 1) rs (fun x hx => h x (by simp [hx]))
          have hp := articlePath_ok (home := db.home) hb (DB.articleName (draw k).1 (draw k).2)
          have e : Job.playIn db.cwd ((n, some z) :: rs) fs (Job.tryNames db b o d t draw (fuel + 1) k) =
              Job.playIn db.cwd rs fs (Job.tryNames db b o d t draw fuel (k + 1)) := by
            rw [Job.tryNames]
            simp only [hp, Job.orStop, Job.playIn, Job.stepIn]
          rw [e, this, List.length_cons, Nat.add_sub_add_right, show k + 1 + min fuel rs.length = k + min (fuel + 1) (rs.length + 1) by omega]
  unfold Call.inRoom
  rw [Job.start, go fuel 0 rs hr]
  by_cases hl : rs.length < fuel
  · obtain ⟨m, hm⟩ : ∃ m, fuel - rs.length = m + 1 := ⟨fuel - rs.length - 1, by omega⟩
    rw [hm, if_pos hl, Job.tryNames]
    simp only [articlePath_ok (home := db.home) hb, Job.orStop]
  · rw [show fuel - rs.length = 0 by omega, if_neg hl]
    rfl

/-! ## Trying again -/

/-- The records that are read from a list when the bytes `part` are in the way: each takes the end of one record and the beginning of the next. -/
def Spec.shifted : Bytes → List Bytes → List Bytes
  | part, [] => [padTo 128 part]
  | part, m :: ms => (part ++ m.take (128 - part.length)) :: shifted (m.drop (128 - part.length)) ms

/-- The full claim about trying again: after a record could not be added, the records that are added later are listed. -/
def Spec.LaterListed : Prop :=
  ∀ (db : DB) (c : Codec) (fs : FS) (b : Bytes) (r : FileHeader) (rs : List (Nat × Option Nat)) (D : FS) (e : String) (later : List FileHeader) (fs' : FS)
    (old : List FileHeader), WholeRecords db fs b → db.readArticleRecords c fs b = .ok old →
    (Call.addRecord b r).inRoom db c fs rs = (D, some (.err e)) → later.foldlM (fun fs r => db.addArticleRecord c fs b r) D = .ok fs' →
    ∃ more, db.readArticleRecords c fs' b = .ok (old ++ more) ∧ ∀ x ∈ later, storedArticle c x ∈ more

theorem slots_partial {rs : List Bytes} (hr : Sized 128 rs) {part : Bytes} (h0 : 0 < part.length) (hp : part.length ≤ 128) :
    slots 128 (rs.flatten ++ part) = rs ++ [padTo 128 part] := by
  apply List.ext_getElem
  · simp only [slots, List.length_map, List.length_range, List.length_append, hr.flatten_length, List.length_singleton]
    omega
  · intro i h1 h2
    simp only [slots, List.getElem_map, List.getElem_range]
    by_cases hi : i < rs.length
    · rw [slot_flatten hr part i hi, List.getElem_append_left hi]
    · have hi' : i = rs.length := by
        have : i < rs.length + 1 := by simpa using h2
        omega
      subst hi'
      rw [List.getElem_append_right (Nat.le_refl _)]
      simp only [Nat.sub_self, List.getElem_cons_zero]
      unfold slot slice
      rw [← hr.flatten_length, List.take_length_add_append, List.drop_left' rfl, List.take_of_length_le hp]

theorem slots_shifted {ms : List Bytes} (hm : Sized 128 ms) : ∀ {rs : List Bytes} {part : Bytes}, Sized 128 rs → 0 < part.length → part.length < 128 →
    slots 128 (rs.flatten ++ (part ++ ms.flatten)) = rs ++ shifted part ms := by
  induction ms with
  | nil => intro rs part hr h0 h1; rw [shifted, List.flatten_nil, List.append_nil]; exact slots_partial hr h0 (by omega)
  | cons m ms ih =>
    intro rs part hr h0 h1
    have hm1 : m.length = 128 := hm m (by simp)
    have e : rs.flatten ++ (part ++ (m :: ms).flatten) =
        (rs ++ [part ++ m.take (128 - part.length)]).flatten ++ (m.drop (128 - part.length) ++ ms.flatten) := by
      simp only [List.flatten_cons, List.flatten_append, List.flatten_nil, List.append_nil, List.append_assoc]
      rw [← List.append_assoc (m.take _), List.take_append_drop]
    rw [e, ih hm.tail (hr.append ?_) (by rw [List.length_drop]; omega) (by rw [List.length_drop]; omega), shifted]
    · simp
    · intro x hx
      rw [List.mem_singleton.mp hx, List.length_append, List.length_take]
      omega

theorem shifted_length (ms : List Bytes) : ∀ part, (shifted part ms).length = ms.length + 1 := by
  induction ms with
  | nil => intro part; rfl
  | cons m ms ih => intro part; rw [shifted, List.length_cons, ih, List.length_cons]

/-- The list of a board is at `l` and holds `d`. -/
def ListHolds (db : DB) (fs : FS) (p : Bytes) (l : Path) (d : Bytes) : Prop :=
  fs.lookup db.cwd p = .ok l ∧ (fs.get l = some (.file d) ∨ fs.get l = none ∧ d = [])

theorem ListHolds.read {db : DB} {c : Codec} {fs : FS} {b p : Bytes} {l : Path} {d : Bytes} (h : ListHolds db fs p l d)
    (hp : getBoardArticlesDirectoryPath db.home b = .ok p) : db.readArticleRecords c fs b = .ok ((slots 128 d).map (FileHeader.parse c)) := by
  rw [DB.readArticleRecords, hp, Res.ok_bind, DB.openArticleList, h.1, Res.ok_bind]
  rcases h.2 with h | ⟨h, h'⟩
  · rw [h]
    simp only [openFileHeaderFile, readFile_slots (size := 128) (by omega) (FileHeader.unmarshal_eq c)]
  · rw [h, h']; rfl

theorem ListHolds.add {db : DB} {c : Codec} {fs fs' : FS} {b p : Bytes} {l : Path} {d : Bytes} {r : FileHeader} (h : ListHolds db fs p l d)
    (hp : getBoardArticlesDirectoryPath db.home b = .ok p) (ha : db.addArticleRecord c fs b r = .ok fs') :
    ListHolds db fs' p l (d ++ r.marshal c) := by
  unfold DB.addArticleRecord FS.appendCreate at ha
  rw [hp, Res.ok_bind] at ha
  obtain ⟨⟨l', d'⟩, ho, ha⟩ := Res.bind_eq_ok.mp ha
  obtain ⟨h1, h2, h3⟩ := FS.openCreate_ok ho
  rw [h.1] at h1
  cases h1
  have hd : d' = d := by
    rw [h3]; unfold fileAt
    rcases h.2 with h | ⟨h, h'⟩
    · rw [h]; rfl
    · rw [h, h']; rfl
  subst hd
  cases ha
  exact ⟨FS.lookup_mono (FS.set_file_dirs h2) h.1, .inl (by rw [FS.get_set (FS.ne_root h2), if_pos rfl])⟩

theorem ListHolds.adds {db : DB} {c : Codec} {b p : Bytes} {l : Path} (hp : getBoardArticlesDirectoryPath db.home b = .ok p) (later : List FileHeader) :
    ∀ {fs fs' : FS} {d : Bytes}, ListHolds db fs p l d → later.foldlM (fun fs r => db.addArticleRecord c fs b r) fs = .ok fs' →
    ListHolds db fs' p l (d ++ (later.map (·.marshal c)).flatten) := by
  induction later with
  | nil => intro fs fs' d h ha; cases ha; simpa using h
  | cons r later ih =>
    intro fs fs' d h ha
    rw [List.foldlM_cons] at ha
    obtain ⟨fs1, h1, h2⟩ := Res.bind_eq_ok.mp ha
    have := ih (h.add hp h1) h2
    simpa using this

/-- **C127, trying again.** When a record could not be added and others are added later: if nothing of the first is in the list, the others are
listed. If the first bytes of it are, each later record is read as the end of the one before and the beginning of its own. -/
theorem C127_again_exact (db : DB) (c : Codec) (fs : FS) (b : Bytes) (r : FileHeader) (rs : List (Nat × Option Nat)) (D : FS) (later : List FileHeader)
    (fs' : FS) (hw : WholeRecords db fs b) (hf : (Call.addRecord b r).inRoom db c fs rs = (D, some (.err "no space left on device")))
    (hok : ∃ D0, db.addArticleRecord c fs b r = .ok D0) (ha : later.foldlM (fun fs r => db.addArticleRecord c fs b r) D = .ok fs') :
    ∃ old k, db.readArticleRecords c fs b = .ok old ∧ k < 128 ∧
      db.readArticleRecords c fs' b = .ok (old ++ if k = 0 then later.map (storedArticle c)
        else (shifted ((r.marshal c).take k) (later.map (·.marshal c))).map (FileHeader.parse c)) := by
  obtain ⟨D0, hok⟩ := hok
  have hex : ((Call.addRecord b r).exec db c fs).2 = .ok .done := by simp only [Call.exec, hok, writes]
  have hm : (r.marshal c).length = 128 := FileHeader.marshal_length c r
  obtain ⟨p, l, h1, h2, h3⟩ := (C127_exact db c fs (.addRecord b r) (fun _ _ _ _ _ _ h => by cases h) _ hex D).mp ⟨rs, D, _, hf, same_refl _⟩
  have hp : getBoardArticlesDirectoryPath db.home b = .ok p := h1
  obtain ⟨d, k, hk, hd, hD⟩ : ∃ d k, k < 128 ∧ ListHolds db fs p l d ∧ ListHolds db D p l (d ++ (r.marshal c).take k) := by
    rcases h3 with ⟨h3, h4, h5⟩ | ⟨old, k, h3, h4, h5, h6⟩
    · exact ⟨[], 0, by omega, ⟨h2, .inr ⟨h3, rfl⟩⟩, FS.lookup_mono (fun q hq => (h5 q).trans hq) h2, .inr ⟨(h5 l).trans h3, by simp⟩⟩
    · refine ⟨old, k, by rw [← hm]; exact h3, ⟨h2, ?_⟩, FS.lookup_mono (fun q hq => ?_) h2, .inl h5⟩
      · rcases h4 with h4 | ⟨h4, h7, _⟩
        · exact .inl h4
        · exact .inr ⟨h4, h7⟩
      · by_cases e : q = l
        · subst e; rcases h4 with h4 | ⟨h4, _⟩ <;> rw [h4] at hq <;> cases hq
        · exact (h6 q (by simpa using e)).trans hq
  obtain ⟨n, hn⟩ : ∃ n, d.length = 128 * n := by
    rcases hd.2 with h | ⟨_, h⟩
    · exact hw p d hp (by rw [FS.readFile_of h2, h])
    · exact ⟨0, by rw [h]; rfl⟩
  obtain ⟨os, hos, rfl, _⟩ := aligned_flatten (size := 128) n _ hn
  have hms : Sized 128 (later.map (·.marshal c)) := by
    intro x hx
    obtain ⟨y, _, rfl⟩ := List.mem_map.mp hx
    exact FileHeader.marshal_length c y
  refine ⟨os.map (FileHeader.parse c), k, ?_, hk, ?_⟩
  · rw [hd.read hp, slots_flatten (by omega) hos]
  · rw [(hD.adds hp later ha).read hp]
    by_cases h0 : k = 0
    · subst h0
      rw [if_pos rfl, List.take_zero, List.append_nil, ← List.flatten_append, slots_flatten (by omega) (hos.append hms), List.map_append, List.map_map]
      have : later.map (FileHeader.parse c ∘ (·.marshal c)) = later.map (storedArticle c) :=
        List.map_congr_left fun x _ => FileHeader.parse_marshal_exact c x
      rw [this]
    · rw [if_neg h0, List.append_assoc, slots_shifted hms hos (by rw [List.length_take]; omega) (by rw [List.length_take]; omega), List.map_append]

/-- A record that is added again. -/
def tornRecord : FileHeader := DB.newArticleRecord (ascii "M.1.A.1") (ascii "pichu") (ascii "11/16") (ascii "hi")

/-- The names in the list when one byte of the record was stored and the record is added again. -/
def tornNames : Option (List Bytes) :=
  match (Call.addRecord (ascii "S") tornRecord).inRoom sampleDB asciiCodec sampleFS [(0, none), (0, some 1)] with
  | (D, some (.err _)) => match sampleDB.addArticleRecord asciiCodec D (ascii "S") tornRecord with
    | .ok fs' => match sampleDB.readArticleRecords asciiCodec fs' (ascii "S") with
      | .ok l => some (l.map (·.filename))
      | _ => none
    | _ => none
  | _ => none

/-- The name has got a second first letter, and there is one more record without a name. -/
example : tornNames = some [ascii "MM.1.A.1", []] := by decide +kernel

/-- **C127, later records are lost**: after one byte of a record was stored, the record is added again, and is not listed. -/
theorem C127_again_refuted : ¬ Spec.LaterListed := by
  intro h
  have hw : WholeRecords sampleDB sampleFS (ascii "S") := by
    intro p d hp hr
    cases hp
    have : sampleFS.readFile sampleDB.cwd (indexPath sampleDB.home (ascii "S")) = .err "no such file or directory" := by decide +kernel
    exact absurd (this.symm.trans hr) (by simp)
  have ho : sampleDB.readArticleRecords asciiCodec sampleFS (ascii "S") = .ok [] := by decide +kernel
  have hn : tornNames = some [ascii "MM.1.A.1", []] := by decide +kernel
  unfold tornNames at hn
  cases h1 : (Call.addRecord (ascii "S") tornRecord).inRoom sampleDB asciiCodec sampleFS [(0, none), (0, some 1)] with
  | mk D x =>
    rw [h1] at hn
    split at hn
    · next D' e he =>
      cases he
      split at hn
      · next fs' h2 =>
        obtain ⟨more, h3, h4⟩ := h _ _ _ _ _ _ _ _ [tornRecord] fs' [] hw ho h1 (by simp only [List.foldlM_cons, h2, Res.ok_bind]; rfl)
        rw [h3] at hn
        have h5 := List.mem_map_of_mem (f := (·.filename)) (h4 tornRecord (by simp))
        rw [show more.map (·.filename) = [ascii "MM.1.A.1", []] from Option.some.inj hn] at h5
        exact absurd h5 (by decide +kernel)
      · cases hn
    · cases hn

/-! ## Examples -/

/-- Non-vacuity: a call that would succeed fails with two bytes of the text stored; one that finds room for its three bytes succeeds. -/
example : (match ((Call.writeDraft (ascii "Ab") (ascii "1") (ascii "new")).exec sampleDB asciiCodec draftFS).2 with
      | .ok _ => true
      | _ => false) = true ∧
    fileAt ((Call.writeDraft (ascii "Ab") (ascii "1") (ascii "new")).inRoom sampleDB asciiCodec draftFS [(0, some 0), (0, some 2)]).1
      (at_ sampleDB oldDraft) = some (ascii "ne") ∧
    fileAt ((Call.writeDraft (ascii "Ab") (ascii "1") (ascii "new")).inRoom sampleDB asciiCodec draftFS [(0, some 0), (0, some 3)]).1
      (at_ sampleDB oldDraft) = some (ascii "new") := by decide +kernel

/-- Every later record is moved by the bytes in the way. -/
example : (shifted [1, 2] [List.replicate 128 7, List.replicate 128 8]).map (·.take 3) = [[1, 2, 7], [7, 7, 8], [8, 8, 0]] := by decide +kernel

end Verif
