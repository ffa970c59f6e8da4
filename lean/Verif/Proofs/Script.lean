import Verif.Spec.Script
import Verif.Proofs.Concurrent
/-!
# Helper lemmas for clients that decide what to call next
-/

namespace Verif
open Spec

/-! ## How the contents may change while a call waits -/

/-- What may happen to an object that the call `op` touches. -/
def Kept (op : Call) (o : Obj) (a b : Option Bytes) : Prop := Grown o a b ∨ (Blind op ∧ (∃ br f, o = .article br f) ∧ a ≠ none ∧ b ≠ none)

theorem Kept.refl (op : Call) (o : Obj) (a : Option Bytes) : Kept op o a a := Or.inl (Grown.refl o a)

theorem Kept.some {op : Call} {o : Obj} {a b : Option Bytes} (h : Kept op o a b) (ha : a ≠ none) : b ≠ none := by
  rcases h with h | ⟨_, _, _, h⟩
  · exact h.some ha
  · exact h

theorem Kept.grown {op : Call} {o : Obj} {a b : Option Bytes} (h : Kept op o a b) (hb : ¬ Blind op) : Grown o a b := by
  rcases h with h | ⟨h, _⟩
  · exact h
  · exact absurd h hb

theorem Kept.trans {op : Call} {o : Obj} {a b d : Option Bytes} (h : Kept op o a b) (h' : Kept op o b d) : Kept op o a d := by
  rcases h with h | ⟨h1, h2, h3, h4⟩
  · rcases h' with h' | ⟨h1, ⟨br, f, rfl⟩, h3, h4⟩
    · exact Or.inl (h.trans h')
    · by_cases ha : a = none
      · subst ha
        obtain ⟨y, rfl⟩ := Option.ne_none_iff_exists'.mp h4
        exact Or.inl (Or.inr ⟨trivial, trivial, y, rfl⟩)
      · exact Or.inr ⟨h1, ⟨br, f, rfl⟩, ha, h4⟩
  · exact Or.inr ⟨h1, h2, h3, h'.some h4⟩

/-- From one moment to a later one, as far as the call `op` can see while it changes nothing itself. -/
def Meanwhile (op : Call) (D D' : Holding) : Prop := ∀ o, touches op o → Kept op o (D o) (D' o)

theorem Meanwhile.refl (op : Call) (D : Holding) : Meanwhile op D D := fun o _ => Kept.refl op o _

theorem Meanwhile.trans {op : Call} {D D' D'' : Holding} (h : Meanwhile op D D') (h' : Meanwhile op D' D'') : Meanwhile op D D'' :=
  fun o ho => (h o ho).trans (h' o ho)

/-- A change that the call `op` makes. -/
def Change (op : Call) (o : Obj) (a x : Option Bytes) : Prop :=
  (a = none ∧ x = some []) ∨ (∃ d bs, a = some d ∧ x = some (d ++ bs) ∧ ∀ d, Shared o (some d) → Shared o (some (d ++ bs))) ∨
  (a ≠ none ∧ x ≠ none ∧ Overwrites op) ∨ ∀ y, ¬ Shared o y

/-! ## A call that will give the right answer -/

/-- The call `op` is under way with `j` still to do; the objects hold `D`. Whatever the others do meanwhile, it will give the answer of the ideal
database at some moment. -/
def Sound (db : DB) (c : Codec) (op : Call) : Job → Holding → Prop
  | .done r => fun D => intended c D op = (D, r)
  | .stat q k => fun D => ∃ o, touches op o ∧ o.path db.home = .ok q ∧ ∀ D', Meanwhile op D D' → Sound db c op (k (D' o).isSome) D'
  | .openRead q k => fun D => ∃ o, touches op o ∧ o.path db.home = .ok q ∧
    ∀ D', Meanwhile op D D' → (D' o ≠ none → Sound db c op (k (.ok (at_ db o))) D') ∧
      (D' o = none → Sound db c op (k (.err "no such file or directory")) D')
  | .openWrite q k => fun D => ∃ o, touches op o ∧ o.path db.home = .ok q ∧
    ∀ D', Meanwhile op D D' → (D' o ≠ none → Sound db c op (k (.ok (at_ db o))) D') ∧
      (D' o = none → Sound db c op (k (.err "no such file or directory")) D')
  | .openMake q k => fun D => ∃ o, changes op o ∧ o.path db.home = .ok q ∧
    ∀ D', Meanwhile op D D' → (D' o ≠ none → Sound db c op (k (.ok (at_ db o))) D') ∧
      (D' o = none → (∀ r, k (.ok (at_ db o)) ≠ .done r) ∧ Unseen o (some []) none op ∧
        Sound db c op (k (.ok (at_ db o))) (D'.put o (some [])))
  | .openTrunc q k => fun D => ∃ o, changes op o ∧ o.path db.home = .ok q ∧ (∀ y, ¬ Shared o y) ∧ (∀ r, k (.ok (at_ db o)) ≠ .done r) ∧
    (∀ b, Unseen o (some []) b op) ∧ ∀ D', Meanwhile op D D' → Sound db c op (k (.ok (at_ db o))) (D'.put o (some []))
  | .openExcl q k => fun D => ∃ o, changes op o ∧ o.path db.home = .ok q ∧
    ∀ D', Meanwhile op D D' → (D' o ≠ none → Sound db c op (k false) D') ∧
      (D' o = none → ∃ r, k true = .done r ∧ intended c D' op = (D'.put o (some []), r))
  | .read l size got pos k => fun D => ∃ o, touches op o ∧ l = at_ db o ∧ ¬ Blind op ∧ (size = 0 ∨ ∀ x, Shared o (some x) → size ∣ x.length) ∧
    (∃ d, D o = some d ∧ ReadOk size got pos d) ∧
    ∀ D' d' got', Meanwhile op D D' → D' o = some d' → Complete size got' d' → Sound db c op (k (.ok got')) D'
  | .append l bs k => fun D => ∃ o r, changes op o ∧ l = at_ db o ∧ k = .done r ∧ (∀ d, Shared o (some d) → Shared o (some (d ++ bs))) ∧
    ∀ D', Meanwhile op D D' → ∃ d, D' o = some d ∧ intended c D' op = (D'.put o (some (d ++ bs)), r)
  | .put l bs k => fun D => ∃ o r, changes op o ∧ l = at_ db o ∧ k = .done r ∧ (Overwrites op ∨ ∀ y, ¬ Shared o y) ∧
    ∀ D', Meanwhile op D D' → ∃ d, D' o = some d ∧ intended c D' op = (D'.put o (some (writeAt d 0 bs)), r)
  | .unlink q k => fun D => ∃ o r r', changes op o ∧ o.path db.home = .ok q ∧ (∀ y, ¬ Shared o y) ∧ k (.ok ()) = .done r ∧
    k (.err "no such file or directory") = .done r' ∧
    ∀ D', Meanwhile op D D' → (D' o ≠ none → intended c D' op = (D'.put o none, r)) ∧ (D' o = none → intended c D' op = (D', r'))

theorem Sound.later {db : DB} {c : Codec} {op : Call} {j : Job} {D D' : Holding}
    (h : Sound db c op j D) (hj : ∀ r, j ≠ .done r) (hl : Meanwhile op D D') : Sound db c op j D' := by
  cases j with
  | done r => exact absurd rfl (hj r)
  | stat q k => obtain ⟨o, h1, h2, h3⟩ := h; exact ⟨o, h1, h2, fun D'' h' => h3 D'' (hl.trans h')⟩
  | openRead q k => obtain ⟨o, h1, h2, h3⟩ := h; exact ⟨o, h1, h2, fun D'' h' => h3 D'' (hl.trans h')⟩
  | openWrite q k => obtain ⟨o, h1, h2, h3⟩ := h; exact ⟨o, h1, h2, fun D'' h' => h3 D'' (hl.trans h')⟩
  | openMake q k => obtain ⟨o, h1, h2, h3⟩ := h; exact ⟨o, h1, h2, fun D'' h' => h3 D'' (hl.trans h')⟩
  | openTrunc q k => obtain ⟨o, h1, h2, h3, h4, h5, h6⟩ := h; exact ⟨o, h1, h2, h3, h4, h5, fun D'' h' => h6 D'' (hl.trans h')⟩
  | openExcl q k => obtain ⟨o, h1, h2, h3⟩ := h; exact ⟨o, h1, h2, fun D'' h' => h3 D'' (hl.trans h')⟩
  | append l bs k => obtain ⟨o, r, h1, h2, h3, h4, h5⟩ := h; exact ⟨o, r, h1, h2, h3, h4, fun D'' h' => h5 D'' (hl.trans h')⟩
  | put l bs k => obtain ⟨o, r, h1, h2, h3, h4, h5⟩ := h; exact ⟨o, r, h1, h2, h3, h4, fun D'' h' => h5 D'' (hl.trans h')⟩
  | unlink q k =>
    obtain ⟨o, r, r', h1, h2, h3, h4, h5, h6⟩ := h
    exact ⟨o, r, r', h1, h2, h3, h4, h5, fun D'' h' => h6 D'' (hl.trans h')⟩
  | read l size got pos k =>
    obtain ⟨o, h1, h2, h3, h4, ⟨d, hd, hr⟩, h5⟩ := h
    refine ⟨o, h1, h2, h3, h4, ?_, fun D'' d' got' h' => h5 D'' d' got' (hl.trans h')⟩
    rcases (hl o h1).grown h3 with e | ⟨e1, e2, x, e3⟩
    · exact ⟨d, by rw [e, hd], hr⟩
    · rw [hd] at e1 e3
      refine ⟨d ++ x, e3, hr.grow ?_⟩
      rcases h4 with h | h
      · exact Or.inr h
      · exact Or.inl (h _ e1)

/-- One system call of a client. Either the call goes on, having changed nothing that matters but perhaps opened a file for writing; or it has its
answer, and this is the moment at which the ideal database carries out the call. -/
theorem sound_step {db : DB} {fs0 fs : FS} {c : Codec} {op : Call} {j : Job} {D : Holding} (hpl : ∀ o, touches op o → Placed db fs0 o)
    (hS : Shows db fs0 fs D) (h : Sound db c op j D) (hj : ∀ r, j ≠ .done r) (n : Nat) :
    ∃ D', Shows db fs0 (j.step db.cwd fs n).1 D' ∧
      (D' = D ∨ ∃ o x, D' = D.put o x ∧ changes op o ∧ Change op o (D o) x) ∧
      (((∀ r, (j.step db.cwd fs n).2 ≠ .done r) ∧ Sound db c op (j.step db.cwd fs n).2 D' ∧
          (D' = D ∨ ∃ o, D' = D.put o (some []) ∧
            ((D o = none ∧ Unseen o (some []) none op) ∨ ∀ b, Unseen o (some []) b op))) ∨
        ∃ r, (j.step db.cwd fs n).2 = .done r ∧ intended c D op = (D', r)) := by
  have refl := Meanwhile.refl op D
  have place : ∀ {o : Obj} {q : Bytes}, Placed db fs0 o → o.path db.home = .ok q → fs.lookup db.cwd q = .ok (at_ db o) := by
    intro o q ho hq
    obtain ⟨q', hq', hl⟩ := shows_place hS ho
    rw [hq] at hq'
    have e := Res.ok.inj hq'
    subst e
    exact hl
  have goOn : ∀ {fs' : FS} {j' : Job}, fs' = fs → Sound db c op j' D →
      ∃ D', Shows db fs0 fs' D' ∧ (D' = D ∨ ∃ o x, D' = D.put o x ∧ changes op o ∧ Change op o (D o) x) ∧
      (((∀ r, j' ≠ .done r) ∧ Sound db c op j' D' ∧ (D' = D ∨ ∃ o, D' = D.put o (some []) ∧
            ((D o = none ∧ Unseen o (some []) none op) ∨ ∀ b, Unseen o (some []) b op))) ∨
        ∃ r, j' = .done r ∧ intended c D op = (D', r)) := by
    intro fs' j' e hr
    subst e
    refine ⟨D, hS, Or.inl rfl, ?_⟩
    by_cases hd : ∃ r, j' = .done r
    · obtain ⟨r, rfl⟩ := hd
      exact Or.inr ⟨r, rfl, hr⟩
    · exact Or.inl ⟨fun r e => hd ⟨r, e⟩, hr, Or.inl rfl⟩
  cases j with
  | done r => exact absurd rfl (hj r)
  | stat q k =>
    obtain ⟨o, hto, hq, hk⟩ := h
    have ho := hpl o hto
    refine goOn rfl ?_
    have := hk D refl
    have e : fs.statOk db.cwd q = (D o).isSome := by
      simp only [FS.statOk, place ho hq, hS.content o ho]
      cases D o <;> rfl
    rw [← e] at this
    exact this
  | openRead q k =>
    obtain ⟨o, hto, hq, hk⟩ := h
    have ho := hpl o hto
    refine goOn rfl ?_
    show Sound db c op (k (Job.opened fs db.cwd q false)) D
    have hc := hS.content o ho
    unfold Job.opened
    rw [place ho hq, Res.ok_bind, hc]
    cases e : D o with
    | none => exact (hk D refl).2 e
    | some d => exact (hk D refl).1 (by rw [e]; simp)
  | openWrite q k =>
    obtain ⟨o, hto, hq, hk⟩ := h
    have ho := hpl o hto
    refine goOn rfl ?_
    show Sound db c op (k (Job.opened fs db.cwd q true)) D
    have hc := hS.content o ho
    unfold Job.opened
    rw [place ho hq, Res.ok_bind, hc]
    cases e : D o with
    | none => exact (hk D refl).2 e
    | some d => exact (hk D refl).1 (by rw [e]; simp)
  | openMake q k =>
    obtain ⟨o, hch, hq, hk⟩ := h
    have ho := hpl o (changes_touches hch)
    have hc := hS.content o ho
    have e1 : fs.openCreate db.cwd q = .ok (at_ db o, (fileAt fs (at_ db o)).getD []) := FS.openCreate_of (place ho hq) (shows_notDir hS ho)
    simp only [Job.step, e1, hc]
    cases e : D o with
    | none =>
      obtain ⟨h1, h2, h4⟩ := (hk D refl).2 e
      exact ⟨_, shows_put hS ho [], Or.inr ⟨o, _, rfl, hch, Or.inl ⟨e, rfl⟩⟩, Or.inl ⟨h1, h4, Or.inr ⟨o, rfl, Or.inl ⟨e, h2⟩⟩⟩⟩
    | some d => exact goOn rfl ((hk D refl).1 (by rw [e]; simp))
  | openTrunc q k =>
    obtain ⟨o, hch, hq, h1, h2, h3, h4⟩ := h
    have ho := hpl o (changes_touches hch)
    have e1 : fs.openCreate db.cwd q = .ok (at_ db o, (fileAt fs (at_ db o)).getD []) := FS.openCreate_of (place ho hq) (shows_notDir hS ho)
    simp only [Job.step, e1]
    exact ⟨_, shows_put hS ho [], Or.inr ⟨o, _, rfl, hch, Or.inr (Or.inr (Or.inr h1))⟩, Or.inl ⟨h2, h4 D refl, Or.inr ⟨o, rfl, Or.inr h3⟩⟩⟩
  | openExcl q k =>
    obtain ⟨o, hch, hq, hk⟩ := h
    have ho := hpl o (changes_touches hch)
    have hc := hS.content o ho
    simp only [Job.step, createExcl_place (place ho hq), hc]
    cases e : D o with
    | none =>
      obtain ⟨r, h2, h3⟩ := (hk D refl).2 e
      exact ⟨_, shows_put hS ho [], Or.inr ⟨o, _, rfl, hch, Or.inl ⟨e, rfl⟩⟩, Or.inr ⟨r, h2, h3⟩⟩
    | some d => exact goOn rfl ((hk D refl).1 (by rw [e]; simp))
  | read l size got pos k =>
    obtain ⟨o, hto, hl, h3, h4, ⟨d, hd, hr⟩, h5⟩ := h
    have ho := hpl o hto
    subst hl
    have hc := hS.content o ho
    rw [hd] at hc
    simp only [Job.step, hc, Option.map_some]
    by_cases hp : pos < d.length
    · rw [if_pos hp]
      exact goOn rfl ⟨o, hto, rfl, h3, h4, ⟨d, hd, hr.step hp n⟩, h5⟩
    · rw [if_neg hp]
      exact goOn rfl (h5 D d got refl hd (hr.complete hp))
  | append l bs k =>
    obtain ⟨o, r, hch, hl, hk, hm, h4⟩ := h
    have ho := hpl o (changes_touches hch)
    subst hl
    obtain ⟨d, hd, hi⟩ := h4 D refl
    have hc := hS.content o ho
    rw [hd] at hc
    simp only [Job.step, hc, Option.map_some]
    exact ⟨_, shows_put hS ho _, Or.inr ⟨o, _, rfl, hch, Or.inr (Or.inl ⟨d, bs, hd, rfl, hm⟩)⟩, Or.inr ⟨r, hk, hi⟩⟩
  | put l bs k =>
    obtain ⟨o, r, hch, hl, hk, hm, h4⟩ := h
    have ho := hpl o (changes_touches hch)
    subst hl
    obtain ⟨d, hd, hi⟩ := h4 D refl
    have hc := hS.content o ho
    rw [hd] at hc
    simp only [Job.step, hc, Option.map_some]
    refine ⟨_, shows_put hS ho _, Or.inr ⟨o, _, rfl, hch, ?_⟩, Or.inr ⟨r, hk, hi⟩⟩
    rcases hm with hm | hm
    · exact Or.inr (Or.inr (Or.inl ⟨by rw [hd]; simp, by simp, hm⟩))
    · exact Or.inr (Or.inr (Or.inr hm))
  | unlink q k =>
    obtain ⟨o, r, r', hch, hq, h1, h2, h3, h4⟩ := h
    have ho := hpl o (changes_touches hch)
    have hc := hS.content o ho
    have e1 : fs.remove db.cwd q = match D o with
        | none => .err "no such file or directory"
        | some _ => .ok (fs.del (at_ db o)) := by
      unfold FS.remove
      rw [place ho hq, Res.ok_bind, hc]
      cases D o <;> rfl
    simp only [Job.step, e1]
    cases e : D o with
    | none => exact ⟨D, hS, Or.inl rfl, Or.inr ⟨r', h3, (h4 D refl).2 e⟩⟩
    | some d => exact ⟨_, shows_drop hS ho, Or.inr ⟨o, _, rfl, hch, Or.inr (Or.inr (Or.inr h1))⟩, Or.inr ⟨r, h2, (h4 D refl).1 (by rw [e]; simp)⟩⟩

/-! ## The calls -/

section Start

variable {db : DB} {c : Codec} {op : Call} {D : Holding}

theorem sound_list {α : Type} {o : Obj} {q : Bytes} {size : Nat} {parse : Bytes → Res α} {f : Bytes → α} {k : List α → Job}
    (ho : touches op o) (hq : o.path db.home = .ok q) (hs : ¬ Blind op) (h0 : 0 < size) (hz : ∀ x, Shared o (some x) → size ∣ x.length)
    (hp : ∀ b, b.length = size → parse b = .ok (f b))
    (hsome : ∀ D' d, Meanwhile op D D' → D' o = some d → Sound db c op (k ((slots size d).map f)) D')
    (hnone : ∀ D', Meanwhile op D D' → D' o = none → intended c D' op = (D', .err "no such file or directory")) :
    Sound db c op (Job.readList q size parse k) D := by
  refine ⟨o, ho, hq, fun D1 l1 => ⟨fun h => ?_, fun h => hnone D1 l1 h⟩⟩
  obtain ⟨d1, hd1⟩ := Option.ne_none_iff_exists'.mp h
  refine ⟨o, ho, rfl, hs, Or.inr hz, ⟨d1, hd1, ReadOk.start size d1⟩, ?_⟩
  intro D2 d2 got l2 hd2 hc
  have hc : got.map (padTo size) = slots size d2 := by
    rcases hc with ⟨h, _⟩ | ⟨_, h⟩
    · omega
    · exact h
  show Sound db c op (Job.orStop k (got.mapM fun b => parse (padTo size b))) D2
  rw [mapM_pieces hp, hc]
  exact hsome D2 d2 (l1.trans l2) hd2

theorem sound_whole {o : Obj} {q : Bytes} {k : Bytes → Job} (ho : touches op o) (hq : o.path db.home = .ok q) (hs : ¬ Blind op)
    (hsome : ∀ D' d, Meanwhile op D D' → D' o = some d → Sound db c op (k d) D')
    (hnone : ∀ D', Meanwhile op D D' → D' o = none → intended c D' op = (D', .err "no such file or directory")) :
    Sound db c op (Job.readWhole q k) D := by
  refine ⟨o, ho, hq, fun D1 l1 => ⟨fun h => ?_, fun h => hnone D1 l1 h⟩⟩
  obtain ⟨d1, hd1⟩ := Option.ne_none_iff_exists'.mp h
  refine ⟨o, ho, rfl, hs, Or.inl rfl, ⟨d1, hd1, ReadOk.start 0 d1⟩, ?_⟩
  intro D2 d2 got l2 hd2 hc
  have hc : got.flatten = d2 := by
    rcases hc with ⟨_, h⟩ | ⟨h, _⟩
    · exact h
    · omega
  show Sound db c op (k got.flatten) D2
  rw [hc]
  exact hsome D2 d2 (l1.trans l2) hd2

/-- What exists stays so. -/
theorem meanwhile_some {D' : Holding} (h : Meanwhile op D D') {o : Obj} (ho : touches op o) {d : Bytes} (hd : D o = some d) :
    ∃ d', D' o = some d' := Option.ne_none_iff_exists'.mp ((h o ho).some (by rw [hd]; simp))

/-- Opening with `O_APPEND|O_CREATE`, then writing. -/
theorem sound_add {o : Obj} {q bs : Bytes} {r : Res Answer} (ho : changes op o) (hq : o.path db.home = .ok q)
    (hsh : ∀ d, Shared o (some d) → Shared o (some (d ++ bs))) (hu : Unseen o (some []) none op)
    (hi : ∀ D', intended c D' op = (D'.put o (some ((D' o).getD [] ++ bs)), r)) :
    Sound db c op (.openMake q (Job.orStop fun l => .append l bs (.done r))) D := by
  have key : ∀ D1 : Holding, D1 o ≠ none → Sound db c op (.append (at_ db o) bs (.done r)) D1 := by
    intro D1 h1
    refine ⟨o, r, ho, rfl, rfl, hsh, ?_⟩
    intro D2 l2
    obtain ⟨d1, hd1⟩ := Option.ne_none_iff_exists'.mp h1
    obtain ⟨d2, hd2⟩ := meanwhile_some l2 (changes_touches ho) hd1
    exact ⟨d2, hd2, by rw [hi D2, hd2]; rfl⟩
  exact ⟨o, ho, hq, fun D1 l1 => ⟨fun h => key D1 h, fun h => ⟨fun r e => (by cases e), hu, key _ (by rw [put_self]; simp)⟩⟩⟩

theorem sound_tries {b ow dt t : Bytes} {draw : Nat → Int × Fin 4096} {fuel0 : Nat} (hop : op = .createArticle b ow dt t draw fuel0)
    (hpath : ∀ k, ∃ q, getBoardArticleFilePath db.home b (DB.articleName (draw k).1 (draw k).2) = .ok q) :
    ∀ (fuel k : Nat) (D : Holding), freeName D b draw fuel0 0 = freeName D b draw fuel k →
    (∀ j, j < k → D (.article b (DB.articleName (draw j).1 (draw j).2)) ≠ none) → k + fuel = fuel0 →
    Sound db c op (Job.tryNames db b ow dt t draw fuel k) D := by
  intro fuel
  induction fuel with
  | zero =>
    intro k D h1 _ _
    show intended c D op = (D, .diverge)
    rw [hop]
    simp only [intended, h1, freeName]
  | succ fuel ih =>
    intro k D h1 h2 hk
    have ho : ∀ k, touches op (.article b (DB.articleName (draw k).1 (draw k).2)) := by
      intro k
      rw [hop]
      exact ⟨k, rfl⟩
    obtain ⟨q, hq⟩ := hpath k
    simp only [Job.tryNames, hq, Job.orStop]
    refine ⟨.article b (DB.articleName (draw k).1 (draw k).2), by rw [hop]; exact ⟨k, rfl⟩, hq, ?_⟩
    intro D1 l1
    have h3 : ∀ j, j < k → D1 (.article b (DB.articleName (draw j).1 (draw j).2)) ≠ none :=
      fun j hj => (l1 _ (ho j)).some (h2 j hj)
    have skip : ∀ i, i ≤ k → freeName D1 b draw fuel0 0 = freeName D1 b draw (fuel0 - i) i := by
      intro i
      induction i with
      | zero => intro _; rfl
      | succ i ih' =>
        intro hi
        rw [ih' (by omega)]
        have e : fuel0 - i = (fuel0 - (i + 1)) + 1 := by omega
        rw [e]
        simp only [freeName]
        rw [if_neg (h3 i (by omega))]
    have hk' : fuel0 - k = fuel + 1 := by omega
    have hf := skip k (Nat.le_refl _)
    rw [hk'] at hf
    simp only [freeName] at hf
    refine ⟨fun h => ?_, fun h => ⟨_, rfl, ?_⟩⟩
    · rw [if_neg h] at hf
      refine ih (k + 1) D1 hf ?_ (by omega)
      intro j hj
      rcases Nat.lt_or_ge j k with h' | h'
      · exact h3 j h'
      · have : j = k := by omega
        subst this
        exact h
    · rw [if_pos h] at hf
      rw [hop]
      simp only [intended, hf]

/-- Every call starts well. -/
theorem sound_start {fs0 : FS} (hop : ∀ o, touches op o → Placed db fs0 o) : Sound db c op (Job.start db c op) D := by
  have path : ∀ {o : Obj}, touches op o → ∃ q, o.path db.home = .ok q := by
    intro o ho
    obtain ⟨q, l, hq, _⟩ := (hop o ho).place
    exact ⟨q, hq⟩
  have dvd : ∀ (n : Nat) (o : Obj), (∀ x, ¬ Shared o x) → ∀ x, Shared o (some x) → n ∣ x.length := fun n o h x hx => absurd hx (h _)
  cases op with
  | readUsers =>
    obtain ⟨q, hq⟩ := path (o := .passwd) rfl
    have hq' : getPasswdsPath db.home = .ok q := hq
    simp only [Job.start, hq', Job.orStop]
    refine sound_list rfl hq id (by omega) (dvd _ _ (fun x h => h.elim)) (Userec.unmarshal_eq c) ?_ ?_
    · intro D' d _ hd
      simp only [Sound, intended, Holding.need, hd, Res.ok_bind]
    · intro D' _ hd
      simp only [intended, Holding.need, hd]
      rfl
  | readFavourites u =>
    obtain ⟨q, hq⟩ := path (o := .favourite u) (Or.inl rfl)
    obtain ⟨bq, hbq⟩ := path (o := .boardList) (Or.inr rfl)
    have hq' : getUserFavoritePath db.home u = .ok q := hq
    have hbq' : getBoardPath db.home = .ok bq := hbq
    have same : ∀ {D' D'' : Holding}, Meanwhile (.readFavourites u) D' D'' → D'' (.favourite u) = D' (.favourite u) :=
      fun l => ((l (.favourite u) (Or.inl rfl)).grown id).const (fun h => h.elim)
    simp only [Job.start, hq', hbq', Job.orStop]
    refine ⟨_, Or.inl rfl, hq, ?_⟩
    intro D1 l1
    cases e : D1 (.favourite u) with
    | none =>
      show Sound db c _ (.done _) D1
      simp only [Sound, intended, e]
    | some d1 =>
      show Sound db c _ (Job.readWhole q _) D1
      refine sound_whole (Or.inl rfl) hq id ?_ ?_
      · intro D2 d l2 hd
        cases hf : loadFav c d with
        | err x => simp only [Sound, intended, hd, favouritesIn, hf]; rfl
        | panic => simp only [Sound, intended, hd, favouritesIn, hf]; rfl
        | diverge => simp only [Sound, intended, hd, favouritesIn, hf]; rfl
        | ok fav =>
          show Sound db c _ (Job.readList bq 256 (BoardHeader.unmarshal c) _) D2
          refine sound_list (Or.inr rfl) hbq id (by omega) (fun x h => h) (BoardHeader.unmarshal_eq c) ?_ ?_
          · intro D3 d3 l3 hd3
            have h3 := same l3
            rw [hd] at h3
            cases hr : fav.folder.resolve ((slots 256 d3).map (BoardHeader.parse c)) with
            | err x => simp only [Sound, intended, h3, favouritesIn, hf, Holding.need, hd3, Res.ok_bind, hr]; rfl
            | panic => simp only [Sound, intended, h3, favouritesIn, hf, Holding.need, hd3, Res.ok_bind, hr]; rfl
            | diverge => simp only [Sound, intended, h3, favouritesIn, hf, Holding.need, hd3, Res.ok_bind, hr]; rfl
            | ok folder => simp only [Sound, intended, h3, favouritesIn, hf, Holding.need, hd3, Res.ok_bind, hr]
          · intro D3 l3 hd3
            have h3 := same l3
            rw [hd] at h3
            simp only [intended, h3, favouritesIn, hf, Holding.need, hd3, Res.ok_bind]
            rfl
      · intro D2 l2 hd
        have := same l2
        rw [hd, e] at this
        cases this
  | readBoards =>
    obtain ⟨q, hq⟩ := path (o := .boardList) rfl
    have hq' : getBoardPath db.home = .ok q := hq
    simp only [Job.start, hq', Job.orStop]
    refine sound_list rfl hq id (by omega) (fun x h => h) (BoardHeader.unmarshal_eq c) ?_ ?_
    · intro D' d _ hd
      simp only [Sound, intended, Holding.need, hd, Res.ok_bind]
    · intro D' _ hd
      simp only [intended, Holding.need, hd]
      rfl
  | listArticles b =>
    obtain ⟨q, hq⟩ := path (o := .articleIndex b) rfl
    have hq' : getBoardArticlesDirectoryPath db.home b = .ok q := hq
    simp only [Job.start, hq', Job.orStop]
    refine ⟨_, rfl, hq, fun D1 l1 => ⟨fun h => ?_, fun h => ?_⟩⟩
    · obtain ⟨d1, hd1⟩ := Option.ne_none_iff_exists'.mp h
      refine ⟨_, rfl, rfl, id, Or.inr (fun x h => h), ⟨d1, hd1, ReadOk.start 128 d1⟩, ?_⟩
      intro D2 d2 got l2 hd2 hc
      have hc : got.map (padTo 128) = slots 128 d2 := by
        rcases hc with ⟨h, _⟩ | ⟨_, h⟩
        · omega
        · exact h
      simp only [Job.orStop, mapM_pieces (FileHeader.unmarshal_eq c), hc, Sound, intended, hd2]
      rfl
    · show intended c D1 _ = _
      simp only [intended, h]
      rfl
  | listTreasure b ds =>
    obtain ⟨q, hq⟩ := path (o := .treasureIndex b ds) rfl
    have hq' : getBoardTreasuresDirectoryPath db.home b ds = .ok q := hq
    simp only [Job.start, hq', Job.orStop]
    refine sound_list rfl hq id (by omega) (dvd _ _ (fun x h => h.elim)) (FileHeader.unmarshal_eq c) ?_ ?_
    · intro D' d _ hd
      simp only [Sound, intended, Holding.need, hd, Res.ok_bind]
      rfl
    · intro D' _ hd
      simp only [intended, Holding.need, hd]
      rfl
  | readArticle b f =>
    obtain ⟨q, hq⟩ := path (o := .article b f) rfl
    have hq' : getBoardArticleFilePath db.home b f = .ok q := hq
    simp only [Job.start, hq', Job.orStop]
    refine sound_whole rfl hq id ?_ ?_
    · intro D' d _ hd
      simp only [Sound, intended, Holding.need, hd, Res.ok_bind]
    · intro D' _ hd
      simp only [intended, Holding.need, hd]
      rfl
  | readTreasure b ds f =>
    obtain ⟨q, hq⟩ := path (o := .treasure b ds f) rfl
    have hq' : getBoardTreasureFilePath db.home b ds f = .ok q := hq
    simp only [Job.start, hq', Job.orStop]
    refine sound_whole rfl hq id ?_ ?_
    · intro D' d _ hd
      simp only [Sound, intended, Holding.need, hd, Res.ok_bind]
    · intro D' _ hd
      simp only [intended, Holding.need, hd]
      rfl
  | addBoard r =>
    obtain ⟨q, hq⟩ := path (o := .boardList) rfl
    have hq' : getBoardPath db.home = .ok q := hq
    simp only [Job.start, hq', Job.orStop]
    refine sound_add rfl hq ?_ ⟨rfl, rfl, rfl⟩ (fun _ => rfl)
    · intro d hd
      show 256 ∣ _
      rw [List.length_append, BoardHeader.marshal_length]
      exact Nat.dvd_add hd ⟨1, rfl⟩
  | createArticle b ow dt t draw fuel =>
    exact sound_tries rfl (fun k => path (o := .article b (DB.articleName (draw k).1 (draw k).2)) ⟨k, rfl⟩) fuel 0 D rfl (fun j h => absurd h (by omega)) (by omega)
  | addRecord b r =>
    obtain ⟨q, hq⟩ := path (o := .articleIndex b) rfl
    have hq' : getBoardArticlesDirectoryPath db.home b = .ok q := hq
    simp only [Job.start, hq', Job.orStop]
    refine sound_add rfl hq ?_ ⟨rfl, rfl, rfl⟩ (fun _ => rfl)
    · intro d hd
      show 128 ∣ _
      rw [List.length_append, FileHeader.marshal_length]
      exact Nat.dvd_add hd ⟨1, rfl⟩
  | writeArticle b f x =>
    obtain ⟨q, hq⟩ := path (o := .article b f) rfl
    have hq' : getBoardArticleFilePath db.home b f = .ok q := hq
    simp only [Job.start, hq', Job.orStop]
    have key : ∀ D1 : Holding, D1 (.article b f) ≠ none →
        Sound db c (.writeArticle b f x) (.put (at_ db (.article b f)) x (.done (.ok .done))) D1 := by
      intro D1 h1
      refine ⟨_, _, rfl, rfl, rfl, Or.inl trivial, ?_⟩
      intro D2 l2
      obtain ⟨d1, hd1⟩ := Option.ne_none_iff_exists'.mp h1
      obtain ⟨d2, hd2⟩ := meanwhile_some l2 (o := .article b f) rfl hd1
      refine ⟨d2, hd2, ?_⟩
      simp only [intended, hd2]
      simp [writeAt, zeros]
    exact ⟨_, rfl, hq, fun D1 l1 => ⟨fun h => key D1 h, fun h => ⟨fun r e => (by cases e), ⟨rfl, rfl, rfl⟩, key _ (by rw [put_self]; simp)⟩⟩⟩
  | appendArticle b f x =>
    obtain ⟨q, hq⟩ := path (o := .article b f) rfl
    have hq' : getBoardArticleFilePath db.home b f = .ok q := hq
    simp only [Job.start, hq', Job.orStop]
    refine ⟨_, rfl, hq, fun D1 l1 => ⟨fun h => ?_, fun h => ?_⟩⟩
    · refine ⟨_, _, rfl, rfl, rfl, fun _ _ => trivial, ?_⟩
      intro D2 l2
      obtain ⟨d1, hd1⟩ := Option.ne_none_iff_exists'.mp h
      obtain ⟨d2, hd2⟩ := meanwhile_some l2 (o := .article b f) rfl hd1
      exact ⟨d2, hd2, by simp only [intended, hd2]⟩
    · show intended c D1 _ = _
      simp only [intended, h]
  | readDraft u d =>
    obtain ⟨q, hq⟩ := path (o := .draft u d) rfl
    have hq' : getUserDraftPath db.home u d = .ok q := hq
    have same : ∀ {D' D'' : Holding}, Meanwhile (.readDraft u d) D' D'' → D'' (.draft u d) = D' (.draft u d) :=
      fun l => ((l (.draft u d) rfl).grown id).const (fun h => h.elim)
    simp only [Job.start, hq', Job.orStop]
    refine ⟨_, rfl, hq, ?_⟩
    intro D1 l1
    cases e : D1 (.draft u d) with
    | none =>
      show intended c D1 _ = _
      simp only [intended, e]
      rfl
    | some d1 =>
      refine sound_whole rfl hq id ?_ ?_
      · intro D2 d2 _ hd
        simp only [Sound, intended, hd]
        rfl
      · intro D2 l2 hd
        have := same l2
        rw [hd, e] at this
        cases this
  | deleteDraft u d =>
    obtain ⟨q, hq⟩ := path (o := .draft u d) rfl
    have hq' : getUserDraftPath db.home u d = .ok q := hq
    simp only [Job.start, hq', Job.orStop]
    refine ⟨_, _, _, rfl, hq, fun y h => (by cases y <;> exact h.elim), rfl, rfl, fun D1 l1 => ⟨fun h => ?_, fun h => ?_⟩⟩
    · obtain ⟨d1, hd1⟩ := Option.ne_none_iff_exists'.mp h
      simp only [intended, hd1]
    · simp only [intended, h]
  | writeDraft u d x =>
    obtain ⟨q, hq⟩ := path (o := .draft u d) rfl
    have hq' : getUserDraftPath db.home u d = .ok q := hq
    simp only [Job.start, hq', Job.orStop]
    have hns : ∀ y, ¬ Shared (.draft u d) y := fun y h => by cases y <;> exact h.elim
    refine ⟨_, rfl, hq, hns, fun r e => (by cases e), fun b => ⟨rfl, rfl⟩, ?_⟩
    intro D1 l1
    refine ⟨.draft u d, _, rfl, rfl, rfl, Or.inr hns, ?_⟩
    intro D2 l2
    have e := ((l2 (.draft u d) rfl).grown id).const (hns _)
    refine ⟨[], by rw [e, put_self], ?_⟩
    simp [intended, writeAt, zeros]

end Start


/-! ## All clients together -/

/-- Where the disk and the ideal database differ, a client has opened a file and not yet written to it. -/
def Ajar (D : Holding) (i : Atomic) : Prop :=
  ∀ o, D o = i.hold o ∨ ∃ p op next, i.turn p = .called op next ∧ Unseen o (D o) (i.hold o) op

/-- No two calls that wait disturb each other. -/
def Calm (i : Atomic) : Prop :=
  ∀ p q op op' next next', p ≠ q → i.turn p = .called op next → i.turn q = .called op' next' → Undisturbed i.hold op op'

theorem blind_article {op : Call} {o : Obj} (h : Blind op) (ho : touches op o) : ∃ br f, o = .article br f := by
  cases op with
  | createArticle b ow d t draw fuel => obtain ⟨k, rfl⟩ := ho; exact ⟨_, _, rfl⟩
  | writeArticle b f x => exact ⟨b, f, ho⟩
  | appendArticle b f x => exact ⟨b, f, ho⟩
  | _ => exact h.elim

theorem unseen_changes {op : Call} {o : Obj} {a b : Option Bytes} (h : Unseen o a b op) : changes op o := by
  cases op with
  | addBoard r => exact h.1
  | addRecord br r => exact h.1
  | writeArticle br f x => exact h.1
  | writeDraft u d x => exact h.1
  | _ => exact h.elim

theorem unseen_now {op : Call} {o : Obj} {a b : Option Bytes} (h : Unseen o a b op) : a = some [] := by
  cases op with
  | addBoard r => exact h.2.1
  | addRecord br r => exact h.2.1
  | writeArticle br f x => exact h.2.1
  | writeDraft u d x => exact h.2
  | _ => exact h.elim

/-- A file that is open but not yet written to is one that the other calls do not touch, or a new list. -/
theorem unseen_undisturbed {op op' : Call} {o : Obj} {a : Option Bytes} {m : Holding} (h : Unseen o a (m o) op) (hu : Undisturbed m op op')
    (ho : touches op' o) : ∃ b, o = .articleIndex b ∧ a = some [] ∧ m o = none := by
  rcases hu o (unseen_changes h) ho with ⟨h1, h2⟩ | ⟨h1, h2⟩
  · cases op with
    | addBoard r =>
      obtain ⟨rfl, _, h3⟩ := h
      rw [h3] at h1
      exact h1.elim
    | addRecord br r =>
      obtain ⟨rfl, h3, h4⟩ := h
      exact ⟨br, rfl, h3, h4⟩
    | writeArticle br f x => exact absurd trivial h2
    | writeDraft u d x =>
      obtain ⟨rfl, _⟩ := h
      generalize m (.draft u d) = y at h1
      cases y <;> exact h1.elim
    | _ => exact h.elim
  · obtain ⟨br, f, rfl⟩ := blind_article h1 ho
    cases op with
    | addBoard r => exact absurd h.2.2 h2
    | addRecord br r => exact absurd h.2.2 h2
    | writeArticle br f x => exact absurd h.2.2 h2
    | writeDraft u d x => cases h.1
    | _ => exact h.elim

theorem open_calm {c : Codec} {D D' : Holding} {i : Atomic} (hg : Ajar D i) (hc : Calm i) {p : Nat} {op : Call} {next : Res Answer → Script}
    {r : Res Answer} (hst : i.turn p = .called op next) (hi : intended c D op = (D', r)) :
    (intended c i.hold op).2 = r ∧ Ajar D' (i.setTurn (intended c i.hold op).1 p (.decided (intended c i.hold op).2 next)) := by
  have key := alike_intended c op D i.hold (by
    intro o ho
    rcases hg o with e | ⟨p', op', next', h1, h2⟩
    · exact Or.inl e
    · by_cases hp : p' = p
      · subst hp
        rw [hst] at h1
        cases h1
        exact Or.inr (Or.inl h2)
      · exact Or.inr (Or.inr (unseen_undisturbed h2 (hc p' p op' op next' next hp h1 hst) ho)))
  rw [hi] at key
  obtain ⟨k1, k2⟩ := key
  refine ⟨k1.symm, ?_⟩
  intro o
  rcases k2 o with e | ⟨e1, e2, e3⟩
  · exact Or.inl e
  · have e2 : D' o = D o := e2
    show D' o = (intended c i.hold op).1 o ∨ _
    rw [e2, e3]
    rcases hg o with e | ⟨p', op', next', h1, h2⟩
    · exact Or.inl e
    · refine Or.inr ⟨p', op', next', ?_, ?_⟩
      · have : p' ≠ p := by
          rintro rfl
          rw [hst] at h1
          cases h1
          exact e1 h2
        show (if p' = p then _ else i.turn p') = _
        rw [if_neg this, h1]
      · show Unseen o (D o) ((intended c i.hold op).1 o) op'
        rw [e3]
        exact h2

theorem shared_empty {o : Obj} (h : Shared o none) : Shared o (some []) := by
  cases o with
  | article b f => trivial
  | articleIndex b => exact ⟨0, rfl⟩
  | _ => exact h.elim

/-- A change by one call is harmless for another one that waits. -/
theorem change_kept {D : Holding} {i : Atomic} (hg : Ajar D i) {op op' : Call} (hu : Undisturbed i.hold op op') {o : Obj} (hch : changes op o)
    (ho : touches op' o) {x : Option Bytes} (h : Change op o (D o) x) : Kept op' o (D o) x := by
  have hn : D o = none → i.hold o = none := by
    intro e
    rcases hg o with e' | ⟨_, op0, _, _, h0⟩
    · rw [← e', e]
    · rw [unseen_now h0] at e; cases e
  have hsome : i.hold o ≠ none → D o ≠ none := fun h' e => h' (hn e)
  have blind : Blind op' ∧ i.hold o ≠ none → x ≠ none → Kept op' o (D o) x := by
    rintro ⟨h1, h2⟩ h3
    exact Or.inr ⟨h1, blind_article h1 ho, hsome h2, h3⟩
  rcases h with ⟨h1, rfl⟩ | ⟨d, bs, h1, rfl, h2⟩ | ⟨h1, h2, h3⟩ | h1
  · rcases hu o hch ho with ⟨h2, _⟩ | h2
    · rw [hn h1] at h2
      rw [h1]
      exact Or.inl (Or.inr ⟨h2, shared_empty h2, [], rfl⟩)
    · exact absurd (hn h1) h2.2
  · rcases hu o hch ho with ⟨h3, _⟩ | h3
    · have hs : Shared o (some d) := by
        rcases hg o with e | ⟨_, op0, _, _, h0⟩
        · rw [← h1, e]; exact h3
        · have := unseen_now h0
          rw [h1] at this
          cases this
          cases op0 with
          | addBoard r =>
            obtain ⟨rfl, _, h4⟩ := h0
            rw [h4] at h3
            exact h3.elim
          | addRecord br r => obtain ⟨rfl, _, _⟩ := h0; exact ⟨0, rfl⟩
          | writeArticle br f x => obtain ⟨rfl, _, _⟩ := h0; trivial
          | writeDraft u d x =>
            obtain ⟨rfl, _⟩ := h0
            generalize i.hold (.draft u d) = y at h3
            cases y <;> exact h3.elim
          | _ => exact h0.elim
      rw [h1]
      exact Or.inl (Or.inr ⟨hs, h2 d hs, bs, rfl⟩)
    · exact blind h3 (by simp)
  · rcases hu o hch ho with ⟨_, h4⟩ | h4
    · exact absurd h3 h4
    · exact blind h4 h2
  · rcases hu o hch ho with ⟨h2, _⟩ | h2
    · exact absurd h2 (h1 _)
    · obtain ⟨br, f, rfl⟩ := blind_article h2.1 ho
      exact absurd (show Shared (.article br f) none from trivial) (h1 _)

/-- How a client of the house corresponds to one of the ideal database. -/
inductive Matches (db : DB) (c : Codec) (D : Holding) : Session → Turn → Prop where
  | idle (s : Script) : Matches db c D (.idle s) (.idle s)
  | called (j : Job) (op : Call) (next : Res Answer → Script) (hj : ∀ r, j ≠ .done r) (h : Sound db c op j D) :
    Matches db c D (.busy j next) (.called op next)
  | decided (r : Res Answer) (next : Res Answer → Script) : Matches db c D (.busy (.done r) next) (.decided r next)

structure Pair (db : DB) (fs0 : FS) (c : Codec) (s : House) (D : Holding) (i : Atomic) : Prop where
  holds : Shows db fs0 s.fs D
  gap : Ajar D i
  clients : ∀ p, Matches db c D (s.sessions p) (i.turn p)

theorem Spec.Atomic.Run.append {c : Codec} {s t u : Atomic} {xs ys : List Mark} (h : Atomic.Run c s xs t) (h' : Atomic.Run c t ys u) :
    Atomic.Run c s (xs ++ ys) u := by
  induction h with
  | nil => exact h'
  | cons hm _ ih => exact .cons hm (ih h')

theorem setTurn_self (i : Atomic) (m : Holding) (p : Nat) (x : Turn) : (i.setTurn m p x).turn p = x := by
  simp [Atomic.setTurn]

theorem setTurn_other (i : Atomic) (m : Holding) {p q : Nat} (x : Turn) (h : q ≠ p) : (i.setTurn m p x).turn q = i.turn q := by
  simp [Atomic.setTurn, h]

theorem setSession_self (s : House) (fs : FS) (p : Nat) (x : Session) : (s.setSession fs p x).sessions p = x := by
  simp [House.setSession]

theorem setSession_other (s : House) (fs : FS) {p q : Nat} (x : Session) (h : q ≠ p) : (s.setSession fs p x).sessions q = s.sessions q := by
  simp [House.setSession, h]

section Together

variable {db : DB} {fs0 : FS} {c : Codec}

/-- The other clients stay as they are when `p` makes a change. -/
theorem pair_clients {s : House} {D D' : Holding} {i i' : Atomic} (h : Pair db fs0 c s D i) {p : Nat} {fs' : FS} {x : Session}
    (hD : ∀ q op next, q ≠ p → i.turn q = .called op next → Meanwhile op D D') (hi : ∀ q, q ≠ p → i'.turn q = i.turn q)
    (hp : Matches db c D' x (i'.turn p)) (q : Nat) : Matches db c D' ((s.setSession fs' p x).sessions q) (i'.turn q) := by
  by_cases e : q = p
  · subst e
    rw [setSession_self]
    exact hp
  · rw [setSession_other _ _ _ e, hi q e]
    have hm := h.clients q
    generalize hs : s.sessions q = y at hm
    generalize ht : i.turn q = z at hm
    cases hm with
    | idle s => exact .idle s
    | called j op next hj hso => exact .called j op next hj (hso.later hj (hD q op next e ht))
    | decided r next => exact .decided r next

theorem open_turn {D : Holding} {i : Atomic} (h : Ajar D i) {p : Nat} {x : Turn} (hx : ∀ op next, i.turn p ≠ .called op next) :
    Ajar D (i.setTurn i.hold p x) := by
  intro o
  rcases h o with e | ⟨p', op', next', h1, h2⟩
  · exact Or.inl e
  · refine Or.inr ⟨p', op', next', ?_, h2⟩
    rw [setTurn_other _ _ _ (by rintro rfl; exact hx op' next' h1)]
    exact h1

theorem pair_step {s : House} {D : Holding} {i : Atomic} (h : Pair db fs0 c s D i) (p n : Nat)
    (hcalm : ∀ marks i', Atomic.Run c i marks i' → Calm i')
    (hplace : ∀ marks i', Atomic.Run c i marks i' → ∀ p op next, i'.turn p = .called op next → ∀ o, touches op o → Placed db fs0 o) :
    ∃ marks D' i', Atomic.Run c i marks i' ∧ marks.filterMap Mark.seen = (s.step db c p n).2 ∧ Pair db fs0 c (s.step db c p n).1 D' i' := by
  have hc := h.clients p
  generalize hcl : s.sessions p = y at hc
  generalize hst : i.turn p = z at hc
  cases hc with
  | idle sc =>
    cases sc with
    | stop =>
      have e : s.step db c p n = (s, []) := by simp only [House.step, hcl]
      rw [e]
      exact ⟨[], D, i, .nil, rfl, h⟩
    | make op next =>
      have e : s.step db c p n = (s.setSession s.fs p (.busy (Job.start db c op) next), [.call p op]) := by simp only [House.step, hcl]
      rw [e]
      have hcall : Atomic.Move c i (.event (.call p op)) (i.setTurn i.hold p (.called op next)) := .call hst
      have hpl := hplace _ _ (.cons hcall .nil) p op next (setTurn_self _ _ _ _)
      have hR : Sound db c op (Job.start db c op) D := sound_start hpl
      have hg1 : Ajar D (i.setTurn i.hold p (.called op next)) := open_turn h.gap (fun op next e => by rw [hst] at e; cases e)
      by_cases hd : ∃ r, Job.start db c op = .done r
      · obtain ⟨r, hr⟩ := hd
        rw [hr] at hR
        obtain ⟨k1, k2⟩ := open_calm (c := c) hg1 (hcalm _ _ (.cons hcall .nil)) (setTurn_self _ _ _ _) hR
        refine ⟨[.event (.call p op), .point p], D, _, .cons hcall (.cons (.point (setTurn_self _ _ _ _)) .nil), rfl, h.holds, k2,
          pair_clients h (fun _ op _ _ _ => Meanwhile.refl op D) ?_ ?_⟩
        · intro q hq
          rw [setTurn_other _ _ _ hq, setTurn_other _ _ _ hq]
        · rw [setTurn_self, k1, hr]
          exact .decided r next
      · refine ⟨[.event (.call p op)], D, _, .cons hcall .nil, rfl, h.holds, hg1,
          pair_clients h (fun _ op _ _ _ => Meanwhile.refl op D) (fun q hq => setTurn_other _ _ _ hq) ?_⟩
        rw [setTurn_self]
        exact .called _ op next (fun r e => hd ⟨r, e⟩) hR
  | decided r next =>
    have e : s.step db c p n = (s.setSession s.fs p (.idle (next r)), [.ret p r]) := by simp only [House.step, hcl]
    rw [e]
    refine ⟨[.event (.ret p r)], D, _, .cons (.ret hst) .nil, rfl, h.holds, open_turn h.gap (fun op next e => by rw [hst] at e; cases e),
      pair_clients h (fun _ op _ _ _ => Meanwhile.refl op D) (fun q hq => setTurn_other _ _ _ hq) ?_⟩
    rw [setTurn_self]
    exact .idle _
  | called j op next hnd hR =>
    have e : s.step db c p n = (s.setSession (j.step db.cwd s.fs n).1 p (.busy (j.step db.cwd s.fs n).2 next), []) := by
      cases j with
      | done r => exact absurd rfl (hnd r)
      | _ => simp only [House.step, hcl]
    rw [e]
    have hpl := hplace _ _ .nil p op next hst
    obtain ⟨D', g1, g2, g3⟩ := sound_step hpl h.holds hR hnd n
    have others : ∀ q op' next', q ≠ p → i.turn q = .called op' next' → Meanwhile op' D D' := by
      intro q op' next' hq hq'
      rcases g2 with rfl | ⟨o, x, rfl, hch, hx⟩
      · exact Meanwhile.refl _ _
      · intro o' ho'
        by_cases eo : o' = o
        · subst eo
          rw [put_self]
          exact change_kept h.gap (hcalm _ _ .nil p q op op' next next' (Ne.symm hq) hst hq') hch ho' hx
        · rw [put_other _ _ eo]
          exact Kept.refl _ _ _
    rcases g3 with ⟨k1, k2, k3⟩ | ⟨r, k1, k2⟩
    · refine ⟨[], D', i, .nil, rfl, g1, ?_, pair_clients h others (fun _ _ => rfl) ?_⟩
      · rcases k3 with rfl | ⟨o, rfl, hu⟩
        · exact h.gap
        · intro o'
          by_cases eo : o' = o
          · subst eo
            rw [put_self]
            refine Or.inr ⟨p, op, next, hst, ?_⟩
            rcases hu with ⟨hn, hu⟩ | hu
            · have hold : i.hold o' = none := by
                rcases h.gap o' with e | ⟨p', op', next', q1, q2⟩
                · rw [← e, hn]
                · rw [unseen_now q2] at hn; cases hn
              rw [hold]
              exact hu
            · exact hu _
          · rw [put_other _ _ eo]
            exact h.gap o'
      · rw [hst]
        exact .called _ op next k1 k2
    · obtain ⟨q1, q2⟩ := open_calm (c := c) h.gap (hcalm _ _ .nil) hst k2
      refine ⟨[.point p], D', _, .cons (.point hst) .nil, rfl, g1, q2, pair_clients h others (fun q hq => setTurn_other _ _ _ hq) ?_⟩
      rw [setTurn_self, q1, k1]
      exact .decided r next

theorem pair_run {s : House} {D : Holding} {i : Atomic} (h : Pair db fs0 c s D i) (sched : List (Nat × Nat))
    (hcalm : ∀ marks i', Atomic.Run c i marks i' → Calm i')
    (hplace : ∀ marks i', Atomic.Run c i marks i' → ∀ p op next, i'.turn p = .called op next → ∀ o, touches op o → Placed db fs0 o) :
    ∃ marks D' i', Atomic.Run c i marks i' ∧ marks.filterMap Mark.seen = (s.run db c sched).2 ∧ Pair db fs0 c (s.run db c sched).1 D' i' := by
  induction sched generalizing s D i with
  | nil => exact ⟨[], D, i, .nil, rfl, h⟩
  | cons x sched ih =>
    obtain ⟨p, n⟩ := x
    obtain ⟨m1, D1, i1, a1, a2, a3⟩ := pair_step h p n hcalm hplace
    obtain ⟨m2, D2, i2, b1, b2, b3⟩ := ih a3 (fun marks i' hr => hcalm _ i' (a1.append hr)) (fun marks i' hr => hplace _ i' (a1.append hr))
    refine ⟨m1 ++ m2, D2, i2, a1.append b1, ?_, b3⟩
    rw [List.filterMap_append, a2, b2]
    rfl

end Together

end Verif
