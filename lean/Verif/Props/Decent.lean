import Verif.Proofs.Diary
import Verif.Proofs.Searcher
import Verif.Props.Script
/-!
# C118: posters, readers and commenters do not get into each other's way
-/

namespace Verif
open Spec

/-! ## Clients that keep to the rules -/

/-- **C118, no races.** Clients that keep to the rules never race. -/
theorem C118_race_free {db : DB} {fs : FS} {R : Rules} {draft : Nat → Bytes → Bytes → Prop} {script : Nat → Script}
    (hC : Company db fs R draft script) : RaceFree R.c (holdings db fs) script ∧ AllPlaced db R.c fs script := by
  have reach : ∀ s, Reached R.c (holdings db fs) script s → ∃ k, Orderly R draft s k := by
    rintro s ⟨marks, hr⟩
    exact orderly_run hC.grows hr _ (orderly_start hC.tidy hC.start hC.decent)
  constructor
  · intro s hs p q op op' next next' hpq hp hq
    obtain ⟨k, hk⟩ := reach s hs
    exact orderly_calm hk hC.apart hpq hp hq
  · intro s hs p op next hp o ho
    obtain ⟨k, hk⟩ := reach s hs
    exact hC.placed o (orderly_placed hk hp o ho)

/-- **C118, one at a time.** Whatever clients that keep to the rules do, and however their system calls are interleaved: it is as if the calls were
carried out one at a time. -/
theorem C118_atomic {db : DB} {fs : FS} {R : Rules} {draft : Nat → Bytes → Bytes → Prop} {script : Nat → Script}
    (hC : Company db fs R draft script) (sched : List (Nat × Nat)) :
    ∃ marks s, Atomic.Run R.c (Atomic.start (holdings db fs) script) marks s ∧
      marks.filterMap Mark.seen = ((opening fs script).run db R.c sched).2 ∧
      (∀ p x, ((opening fs script).run db R.c sched).1.sessions p = .idle x ↔ s.turn p = .idle x) ∧
      ((∀ p, ∃ x, ((opening fs script).run db R.c sched).1.sessions p = .idle x) →
        ∀ o, Placed db fs o → fileAt ((opening fs script).run db R.c sched).1.fs (at_ db o) = s.hold o) :=
  C117_race_free db R.c fs script sched (C118_race_free hC).1 (C118_race_free hC).2

/-- **C118, nothing unfinished is read.** Whoever reads an article gets contents that an article may have in a list, and everything that was in
it at first. -/
theorem C118_finished {db : DB} {fs : FS} {R : Rules} {draft : Nat → Bytes → Bytes → Prop} {script : Nat → Script}
    (hC : Company db fs R draft script) (sched : List (Nat × Nat)) (before after : List Event) (p : Nat) (b f y : Bytes)
    (h : ((opening fs script).run db R.c sched).2 = before ++ .ret p (.ok (.bytes y)) :: after)
    (hc : lastCall p before = some (.readArticle b f)) :
    R.fine b f y ∧ ∀ y0, holdings db fs (.article b f) = some y0 → y0 <+: y := by
  obtain ⟨marks, s, h1, h2, _, _⟩ := C118_atomic hC sched
  obtain ⟨k, _, hD⟩ := diary_run hC.grows h1 [] _ (orderly_start hC.tidy hC.start hC.decent) diary_start
  exact hD.reads before after p b f y (by rw [List.nil_append, h2]; exact h) hc

/-- **C118, what is added stays.** What a client has added to an article is in it when no call is under way. -/
theorem C118_added {db : DB} {fs : FS} {R : Rules} {draft : Nat → Bytes → Bytes → Prop} {script : Nat → Script}
    (hC : Company db fs R draft script) (sched : List (Nat × Nat)) (before after : List Event) (p : Nat) (b f x : Bytes)
    (h : ((opening fs script).run db R.c sched).2 = before ++ .ret p (.ok .done) :: after)
    (hc : lastCall p before = some (.appendArticle b f x))
    (hidle : ∀ p, ∃ s, ((opening fs script).run db R.c sched).1.sessions p = .idle s) :
    ∃ u v, fileAt ((opening fs script).run db R.c sched).1.fs (at_ db (.article b f)) = some (u ++ x ++ v) := by
  obtain ⟨marks, s, h1, h2, _, h4⟩ := C118_atomic hC sched
  obtain ⟨k, hO, hD⟩ := diary_run hC.grows h1 [] _ (orderly_start hC.tidy hC.start hC.decent) diary_start
  obtain ⟨⟨q, hq⟩, u, v, hy⟩ := hD.adds before after p b f x (by rw [List.nil_append, h2]; exact h) hc
  exact ⟨u, v, by rw [h4 hidle _ (hC.placed _ (hO.known q b f hq).1.1)]; exact hy⟩

/-! ## Posters and guests keep to the rules -/

theorem readAll_decent {R : Rules} {draft : Bytes → Bytes → Prop} {b : Bytes} (l : List Bytes) : ∀ k : Ken, (∀ f ∈ l, k.known b f) →
    Decent R draft (readAll b l) k := by
  induction l with
  | nil => intro _ _; trivial
  | cons f l ih => exact fun k h => ⟨h f (by simp), fun _ => ih k (fun f' h' => h f' (by simp [h']))⟩

theorem visit_decent {R : Rules} {draft : Bytes → Bytes → Prop} {b : Bytes} (hb : R.placed (.articleIndex b)) :
    Decent R draft (visit b) Ken.blank := by
  refine ⟨Or.inl hb, fun m => ?_⟩
  refine readAll_decent _ _ ?_
  intro f hf
  obtain ⟨r, hr, rfl⟩ := List.mem_map.mp hf
  exact Or.inr ⟨rfl, r, hr, rfl⟩

theorem comment_decent {R : Rules} {draft : Bytes → Bytes → Prop} {b x : Bytes} (hb : R.placed (.articleIndex b)) (ha : R.adds x) :
    Decent R draft (comment b x) Ken.blank := by
  refine ⟨Or.inl hb, fun m => ?_⟩
  simp only [intended]
  split
  · next r l e =>
    refine ⟨⟨Or.inr ⟨rfl, r, ?_, rfl⟩, ha⟩, fun _ => trivial⟩
    have e := Answer.articles.inj (Res.ok.inj e)
    rw [e]
    exact List.mem_cons_self ..
  · trivial

theorem post_decent {R : Rules} {draft : Bytes → Bytes → Prop} {P : Post} (hb : R.placed (.articleIndex P.board))
    (hd : ∀ j, R.placed (.article P.board (DB.articleName (P.draw j).1 (P.draw j).2)) ∧ -2 ^ 63 ≤ (P.draw j).1 ∧ (P.draw j).1 < 2 ^ 63)
    (hf : ∀ f, R.fine P.board f P.text) : Decent R draft P.script Ken.blank := by
  refine ⟨?_, fun m => ?_⟩
  · rintro o ⟨j, rfl⟩
    exact (hd j).1
  · cases hn : freeName m P.board P.draw P.fuel 0 with
    | none => simp only [intended, hn]; trivial
    | some n =>
      obtain ⟨j, hj, _⟩ := free_drawn hn
      simp only [intended, hn]
      refine ⟨?_, fun m' => ⟨⟨hb, Or.inr ⟨P.text, ?_, hf _⟩⟩, fun _ => trivial⟩⟩
      · show (Ken.blank.keep P.board n (some [])).own P.board n ≠ none
        rw [keep_own, if_pos ⟨rfl, rfl⟩]
        simp
      · have hs : (storedArticle R.c (P.record n)).filename = n := stored_name ⟨j, hj⟩ (fun j => (hd j).2)
        show ((Ken.blank.keep P.board n (some [])).keep P.board n
          (((Ken.blank.keep P.board n (some [])).own P.board n).map fun y => P.text ++ y.drop P.text.length)).own P.board
          (storedArticle R.c (P.record n)).filename = some P.text
        rw [hs, keep_own, if_pos ⟨rfl, rfl⟩, keep_own, if_pos ⟨rfl, rfl⟩]
        simp

theorem readAll_quiet (b : Bytes) (l : List Bytes) : Quiet (readAll b l) := by
  induction l with
  | nil => trivial
  | cons f l ih => exact ⟨by intro b r e; (cases e), fun _ => ih⟩

theorem guest_quiet {placed : Obj → Prop} {s : Script} (h : Guest placed s) : Quiet s := by
  rcases h with rfl | ⟨b, _, rfl⟩ | ⟨b, x, _, rfl⟩ | ⟨user, _, rfl | rfl⟩
  · trivial
  · refine ⟨by intro b r e; (cases e), fun r => ?_⟩
    dsimp only
    split
    · exact readAll_quiet _ _
    · trivial
  · refine ⟨by intro b r e; (cases e), fun r => ?_⟩
    dsimp only
    split
    · exact ⟨by intro b r e; (cases e), fun _ => trivial⟩
    · trivial
  · exact quiet_userArticles user
  · exact quiet_userComments user

/-- Posters and guests keep to the rules. -/
theorem scene_company {db : DB} {c : Codec} {fs : FS} {posts : Nat → Option Post} {script : Nat → Script}
    (h : Scene Post.script db c fs posts script) : Company db fs (sceneRules db c fs posts) (fun _ _ _ => False) script where
  placed := fun _ ho => ho
  tidy := h.tidy
  grows := by
    rintro b f y x (⟨y0, h1, h2⟩ | ⟨q, P, h1, h2, h3⟩) _
    · exact Or.inl ⟨y0, h1, h2.trans (List.prefix_append _ _)⟩
    · exact Or.inr ⟨q, P, h1, h2, h3.trans (List.prefix_append _ _)⟩
  start := fun b f y _ hy => Or.inl ⟨y, hy, List.prefix_refl _⟩
  decent := by
    intro p
    cases hp : posts p with
    | none =>
      rcases h.guests p hp with e | ⟨b, hb, e⟩ | ⟨b, x, hb, e⟩ | ⟨user, hb, e | e⟩
      · rw [e]; trivial
      · rw [e]; exact visit_decent hb
      · rw [e]; exact comment_decent hb trivial
      · rw [e]; exact userArticles_decent hb user
      · rw [e]; exact userComments_decent hb user
    | some P =>
      obtain ⟨e, hb, hd⟩ := h.posters p P hp
      rw [e]
      exact post_decent hb hd (fun f => Or.inr ⟨p, P, hp, rfl, List.prefix_refl _⟩)
  apart := fun _ _ _ _ _ h _ => h

/-- **C118, whole articles.** Any number of clients post articles (file, text, list), read and comment on them at the same time, in any
interleaving of their system calls: nobody ever reads a part of an article. -/
theorem C118_whole_articles : ReadersSeeWhole Post.script := by
  intro db c fs posts script hS sched before after p b f y h hc
  obtain ⟨h1, h2⟩ := C118_finished (scene_company hS) sched before after p b f y h hc
  split
  · next y0 hy => exact h2 y0 hy
  · next hn =>
    rcases h1 with ⟨y0, h1, _⟩ | h1
    · rw [hn] at h1; cases h1
    · exact h1

/-- **C118, comments stay.** -/
theorem C118_comments_stay : CommentsStay Post.script := by
  intro db c fs posts script hS sched before after p b f x h hc hidle
  exact C118_added (scene_company hS) sched before after p b f x h hc hidle

/-- **C118, nothing is lost and nothing is doubled.** -/
theorem C118_posts_arrive : PostsArrive Post.script := by
  intro db c fs posts script hS sched hidle
  have hC := scene_company hS
  obtain ⟨marks, s, h1, h2, h3, h4⟩ := C118_atomic hC sched
  have hb : ∀ p P, posts p = some P → (sceneRules db c fs posts).placed (.articleIndex P.board) := fun p P hP => (hS.posters p P hP).2.1
  have hd : ∀ p P, posts p = some P → ∀ j, -2 ^ 63 ≤ (P.draw j).1 ∧ (P.draw j).1 < 2 ^ 63 := fun p P hP j => ((hS.posters p P hP).2.2 j).2
  have hstart := orderly_start hC.tidy hC.start hC.decent
  obtain ⟨k, name, order, hO, hL⟩ := ledger_run hC.grows hb hd h1 [] _ _ _ hstart
    (ledger_start (posts := posts) (m := holdings db fs) (fun p P hP => (hS.posters p P hP).1) (fun p hp => guest_quiet (hS.guests p hp)))
  obtain ⟨k', hO', hD⟩ := diary_run hC.grows h1 [] _ hstart (diary_start (R := sceneRules db c fs posts) (m := holdings db fs))
  rw [List.nil_append, h2] at hL
  have named : ∀ p ∈ order, ∀ P, posts p = some P → name p = some ((name p).getD []) := by
    intro p hp P hP
    have hs := hL.stages p P hP
    cases hn : name p with
    | some n => rfl
    | none =>
      rw [hn] at hs
      generalize ht : s.turn p = t at hs
      cases hs with
      | idle0 hl => exact absurd hp hl
      | called0 hl => exact absurd hp hl
      | failed hl => exact absurd hp hl
      | gone hl _ => exact absurd hp hl
  have content : ∀ o, Placed db fs o → fileAt ((opening fs script).run db c sched).1.fs (at_ db o) = s.hold o := h4 hidle
  refine ⟨order, fun p => (name p).getD [], hL.nodup, hL.only, ?_, ?_, ?_, ?_⟩
  · intro p P hP hsess hret
    have hturn := (h3 p .stop).mp hsess
    have hs := hL.stages p P hP
    rw [hturn] at hs
    generalize hn : name p = nm at hs
    generalize ht : Turn.idle Script.stop = t at hs
    cases hs with
    | gone hl hg => exact absurd hg hret
    | idle3 hl => exact hl
    | _ => cases ht
  · intro b hpl
    rw [content _ hpl]
    refine (hL.lists b hpl).trans ?_
    congr 1
    refine filterMap_same fun p hp => ?_
    cases hP : posts p with
    | none => exact absurd hP (hL.only p hp)
    | some P =>
      unfold entry
      rw [hP, named p hp P hP]
      rfl
  · intro p hp P hP
    have hn := named p hp P hP
    refine ⟨stored_name (hL.drawn p P _ hP hn) (hd p P hP), hL.fresh p P _ hP hn, ?_, ?_⟩
    · intro q hq Q hQ hpq hbd e
      have e : (name p).getD [] = (name q).getD [] := e
      refine hL.apart p q P Q _ hpq hP hQ hbd hn ?_
      rw [named q hq Q hQ, ← e]
    · obtain ⟨z, hz⟩ := hL.texts p hp P _ hP hn
      obtain ⟨j, hj⟩ := hL.drawn p P _ hP hn
      refine ⟨z, ?_⟩
      rw [content (.article P.board ((name p).getD [])) (by rw [hj]; exact ((hS.posters p P hP).2.2 j).1)]
      exact hz
  · intro b f y0 hpl hy0
    obtain ⟨⟨z, hz⟩, _⟩ := hD.old b f y0 hy0
    exact ⟨z, by rw [content _ hpl]; exact hz⟩

/-! ## Examples: one poster, one guest -/

/-- A disk with an empty board and an empty list of boards. -/
def sceneFS : FS := sampleFS.set (at_ sampleDB .boardList) (.file [])

def scenePost : Post := ⟨ascii "S", ascii "Ab", ascii "11/16", ascii "hi", ascii "new text", fun _ => (1600000000, 0xABC), 3⟩

/-- Client 0 posts. -/
def scenePosts : Nat → Option Post
  | 0 => some scenePost
  | _ => none

/-- Client 0 posts in the manner `how`, client 1 runs `s`. -/
def sceneScript (how : Post → Script) (s : Script) : Nat → Script
  | 0 => how scenePost
  | 1 => s
  | _ => .stop

theorem scene_empty (b : Bytes) : holdings sampleDB sceneFS (.articleIndex b) = none := by
  have last : ∀ (l : List (Path × Node)) (q : Path), (∀ e ∈ l, e.1.getLast? ≠ q.getLast?) → l.lookup q = none := by
    intro l q h
    rw [List.lookup_eq_none_iff]
    intro e he
    rw [bne_iff_ne]
    intro e'
    exact h e he (by rw [e'])
  have hl : (at_ sampleDB (.articleIndex b)).getLast? = some (ascii ".DIR") := by
    simp only [at_, Obj.loc]
    rw [show ∀ x y : Path, x ++ ([ascii "boards"] ++ letterDir b ++ [b, ascii ".DIR"]) = (x ++ ([ascii "boards"] ++ letterDir b ++ [b])) ++ [ascii ".DIR"]
      from fun x _ => by simp]
    · rw [List.getLast?_concat]
    · exact []
  have hne : at_ sampleDB (.articleIndex b) ≠ [] := by
    intro e
    rw [e] at hl
    cases hl
  unfold holdings fileAt FS.get
  rw [if_neg hne, last]
  intro e he
  rw [hl]
  revert e
  decide +kernel

theorem scene_placed : Placed sampleDB sceneFS (.articleIndex (ascii "S")) ∧ Placed sampleDB sceneFS (.article (ascii "S") newName) :=
  ⟨placed_set sample_placed.2.2.1 sample_placed.2.1 _, placed_set sample_placed.2.2.1 sample_placed.2.2.2 _⟩

theorem scene_ok (how : Post → Script) (s : Script) (hs : Guest (Placed sampleDB sceneFS) s) :
    Scene how sampleDB asciiCodec sceneFS scenePosts (sceneScript how s) where
  tidy := ⟨⟨[], by decide +kernel, ⟨0, rfl⟩, fun _ h => by cases h⟩, fun b d _ h => by rw [scene_empty] at h; (cases h), fun b d _ h => by rw [scene_empty] at h; cases h⟩
  posters := by
    intro p P hP
    match p with
    | 0 =>
      cases hP
      exact ⟨rfl, scene_placed.1, fun j => ⟨scene_placed.2, show -2 ^ 63 ≤ (1600000000 : Int) by decide, show (1600000000 : Int) < 2 ^ 63 by decide⟩⟩
    | _ + 1 => cases hP
  guests := by
    intro p hp
    match p with
    | 0 => cases hp
    | 1 => exact hs
    | _ + 2 => exact Or.inl rfl

/-- The hypotheses of the theorems above, with a reader. -/
example : Scene Post.script sampleDB asciiCodec sceneFS scenePosts (sceneScript Post.script (visit (ascii "S"))) :=
  scene_ok _ _ (Or.inr (Or.inl ⟨_, scene_placed.1, rfl⟩))

/-- And those of the general ones. -/
example : Company sampleDB sceneFS (sceneRules sampleDB asciiCodec sceneFS scenePosts) (fun _ _ _ => False)
    (sceneScript Post.script (comment (ascii "S") (ascii "push"))) :=
  scene_company (scene_ok _ _ (Or.inr (Or.inr (Or.inl ⟨_, _, scene_placed.1, rfl⟩))))

/-- The article that a client was given. -/
def Spec.readBack : Event → Option (Nat × Bytes)
  | .ret p (.ok (.bytes y)) => some (p, y)
  | _ => none

/-- A call that was carried out and gives nothing back. -/
def Spec.wentWell : Event → Option Nat
  | .ret p (.ok .done) => some p
  | _ => none

/-- The article that a call reads. -/
def Spec.readOf : Option Call → Option (Bytes × Bytes)
  | some (.readArticle b f) => some (b, f)
  | _ => none

/-- The article that a call adds to, and what it adds. -/
def Spec.addOf : Option Call → Option (Bytes × Bytes × Bytes)
  | some (.appendArticle b f x) => some (b, f, x)
  | _ => none

theorem run_split_at {α : Type} {l : List α} {n : Nat} {x : α} (h : l[n]? = some x) : l = l.take n ++ x :: l.drop (n + 1) := by
  obtain ⟨hn, e⟩ := List.getElem?_eq_some_iff.mp h
  rw [← e]
  simp

theorem readBack_eq {e : Event} {p : Nat} {y : Bytes} (h : readBack e = some (p, y)) : e = .ret p (.ok (.bytes y)) := by
  unfold readBack at h
  split at h
  · cases h; rfl
  · cases h

theorem wentWell_eq {e : Event} {p : Nat} (h : wentWell e = some p) : e = .ret p (.ok .done) := by
  unfold wentWell at h
  split at h
  · cases h; rfl
  · cases h

theorem readOf_eq {o : Option Call} {b f : Bytes} (h : readOf o = some (b, f)) : o = some (.readArticle b f) := by
  unfold readOf at h
  split at h
  · cases h; rfl
  · cases h

theorem addOf_eq {o : Option Call} {b f x : Bytes} (h : addOf o = some (b, f, x)) : o = some (.appendArticle b f x) := by
  unfold addOf at h
  split at h
  · cases h; rfl
  · cases h

/-! ## How the tool posts articles -/

/-- **C118 is false of the way the tool posts articles:** the record is in the list before the text is in the file, and whoever reads the article
in between gets nothing. -/
theorem C118_tool_whole_articles_refuted : ¬ ReadersSeeWhole Post.toolScript := by
  intro H
  have hS := scene_ok Post.toolScript (visit (ascii "S")) (Or.inr (Or.inl ⟨_, scene_placed.1, rfl⟩))
  generalize hsched : List.replicate 7 (0, 0) ++ List.replicate 20 (1, 0) = sched
  have hrun : (((opening sceneFS (sceneScript Post.toolScript (visit (ascii "S")))).run sampleDB asciiCodec sched).2[7]?).bind readBack =
      some (1, []) := by
    subst hsched
    decide +kernel
  have hcall : readOf (lastCall 1 (((opening sceneFS (sceneScript Post.toolScript (visit (ascii "S")))).run sampleDB asciiCodec sched).2.take 7)) =
      some (ascii "S", newName) := by
    subst hsched
    decide +kernel
  obtain ⟨e, he, hr⟩ := Option.bind_eq_some_iff.mp hrun
  have hsplit := run_split_at he
  rw [readBack_eq hr] at hsplit
  have := H sampleDB asciiCodec sceneFS scenePosts _ hS sched _ _ 1 (ascii "S") newName [] hsplit (readOf_eq hcall)
  rw [show holdings sampleDB sceneFS (.article (ascii "S") newName) = none from by decide +kernel] at this
  obtain ⟨q, P, hP, _, hx⟩ := this
  match q with
  | 0 =>
    cases hP
    revert hx
    decide
  | _ + 1 => cases hP

/-- **C118 is false of the way the tool posts articles:** a comment that is accepted before the text is written is overwritten by the text. -/
theorem C118_tool_comments_refuted : ¬ CommentsStay Post.toolScript := by
  intro H
  have hS := scene_ok Post.toolScript (comment (ascii "S") (ascii "push")) (Or.inr (Or.inr (Or.inl ⟨_, _, scene_placed.1, rfl⟩)))
  generalize hsched : List.replicate 7 (0, 0) ++ List.replicate 12 (1, 0) ++ List.replicate 10 (0, 0) = sched
  generalize hscript : sceneScript Post.toolScript (comment (ascii "S") (ascii "push")) = script
  have hrun : (((opening sceneFS script).run sampleDB asciiCodec sched).2[7]?).bind wentWell = some 1 := by
    subst hsched hscript
    decide +kernel
  have hcall : addOf (lastCall 1 (((opening sceneFS script).run sampleDB asciiCodec sched).2.take 7)) = some (ascii "S", newName, ascii "push") := by
    subst hsched hscript
    decide +kernel
  have hfile : fileAt ((opening sceneFS script).run sampleDB asciiCodec sched).1.fs (at_ sampleDB (.article (ascii "S") newName)) =
      some (ascii "new text") := by
    subst hsched hscript
    decide +kernel
  have hidle : ∀ p, ∃ s, ((opening sceneFS script).run sampleDB asciiCodec sched).1.sessions p = .idle s := by
    have idle : ∀ p, p < 2 → (match ((opening sceneFS script).run sampleDB asciiCodec sched).1.sessions p with
        | .idle _ => true
        | .busy _ _ => false) = true := by
      subst hsched hscript
      decide +kernel
    intro p
    by_cases hp : p < 2
    · have := idle p hp
      split at this
      · next s hs => exact ⟨s, hs⟩
      · cases this
    · refine ⟨script p, ?_⟩
      have other : ∀ (sched : List (Nat × Nat)) (s : House), (∀ x ∈ sched, x.1 < 2) → (s.run sampleDB asciiCodec sched).1.sessions p = s.sessions p := by
        intro sched
        induction sched with
        | nil => intro s _; rfl
        | cons x sched ih =>
          intro s h
          have hx : p ≠ x.1 := by
            have := h x (by simp)
            omega
          have hstep : (s.step sampleDB asciiCodec x.1 x.2).1.sessions p = s.sessions p := by
            cases hs : s.sessions x.1 with
            | idle t => cases t <;> simp only [House.step, hs, setSession_other _ _ _ hx]
            | busy j next => cases j <;> simp only [House.step, hs, setSession_other _ _ _ hx]
          exact (ih _ (fun y hy => h y (by simp [hy]))).trans hstep
      exact other sched _ (by
        subst hsched
        intro x hx
        simp only [List.mem_append, List.mem_replicate] at hx
        rcases hx with (⟨_, rfl⟩ | ⟨_, rfl⟩) | ⟨_, rfl⟩ <;> decide)
  obtain ⟨e, he, hr⟩ := Option.bind_eq_some_iff.mp hrun
  have hsplit := run_split_at he
  rw [wentWell_eq hr] at hsplit
  rw [hscript] at hS
  obtain ⟨u, v, huv⟩ := H sampleDB asciiCodec sceneFS scenePosts script hS sched _ _ 1 (ascii "S") newName (ascii "push") hsplit (addOf_eq hcall) hidle
  rw [hfile] at huv
  have huv := Option.some.inj huv
  have hmem : (112 : UInt8) ∈ ascii "new text" := by rw [huv]; simp [ascii]
  revert hmem
  decide

end Verif
