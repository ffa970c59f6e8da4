import Verif.Spec.Decent
/-!
# Searches keep to the rules
-/

namespace Verif
open Spec

/-- The calls of a function are allowed, and what it returns and what the client knows then satisfy `Q`. -/
def DecentP (R : Rules) (draft : Bytes → Bytes → Prop) {α : Type} : Prog α → Ken → (α → Ken → Prop) → Prop
  | .ret a => fun k Q => Q a k
  | .ask op next => fun k Q => Allowed R draft k op ∧ ∀ m, DecentP R draft (next (intended R.c m op).2) (k.after R.c op (intended R.c m op).2) Q

/-- A client that knows at least what is in `k`. -/
def KnowsAll (k k' : Ken) : Prop := (∀ b f, k.known b f → k'.known b f) ∧ ∀ b, k.boards b → k'.boards b

section
variable {R : Rules} {draft : Bytes → Bytes → Prop}

theorem decentP_script {α : Type} {P : Prog α} : ∀ {k : Ken} {Q : α → Ken → Prop}, DecentP R draft P k Q → Decent R draft P.script k := by
  induction P with
  | ret a => intros; trivial
  | ask op next ih => exact fun h => ⟨h.1, fun m => ih _ (h.2 m)⟩

theorem decentP_bind {α β : Type} {P : Prog α} {f : α → Prog β} {Q' : β → Ken → Prop} : ∀ {k : Ken} {Q : α → Ken → Prop}, DecentP R draft P k Q →
    (∀ a k', Q a k' → DecentP R draft (f a) k' Q') → DecentP R draft (P.bind f) k Q' := by
  induction P with
  | ret a => exact fun h hf => hf a _ h
  | ask op next ih => exact fun h hf => ⟨h.1, fun m => ih _ (h.2 m) hf⟩

/-- Go on unless there is an error; the postcondition is only about what the client knows. -/
theorem decentP_andThen {α β : Type} {P : Prog (Res α)} {f : α → Prog (Res β)} {k : Ken} {Q : Res α → Ken → Prop} {Q' : Ken → Prop}
    (h : DecentP R draft P k Q) (hf : ∀ a k', Q (.ok a) k' → DecentP R draft (f a) k' fun _ => Q') (hn : ∀ x k', Q x k' → Q' k') :
    DecentP R draft (P.andThen f) k fun _ => Q' := by
  refine decentP_bind h ?_
  intro a k' ha
  cases a with
  | ok a => exact hf a k' ha
  | err e => exact hn _ _ ha
  | panic => exact hn _ _ ha
  | diverge => exact hn _ _ ha

theorem decentP_boards (hb : R.placed .boardList) (k : Ken) :
    DecentP R draft Prog.boards k fun x k' => KnowsAll k k' ∧ ∀ l, x = .ok l → ∀ b ∈ l, k'.boards b.brdName := by
  refine ⟨by rintro o rfl; exact hb, fun m => ?_⟩
  simp only [intended]
  cases m.need .boardList with
  | ok d =>
    refine ⟨⟨fun _ _ h => h, fun _ h => Or.inl h⟩, ?_⟩
    intro l hl b hbl
    cases hl
    exact Or.inr ⟨b, hbl, rfl⟩
  | err e => exact ⟨⟨fun _ _ h => h, fun _ h => h⟩, fun _ h => by cases h⟩
  | panic => exact ⟨⟨fun _ _ h => h, fun _ h => h⟩, fun _ h => by cases h⟩
  | diverge => exact ⟨⟨fun _ _ h => h, fun _ h => h⟩, fun _ h => by cases h⟩

theorem decentP_articles {b : Bytes} {k : Ken} (hb : k.boards b) :
    DecentP R draft (Prog.articles b) k fun x k' => KnowsAll k k' ∧ ∀ l, x = .ok l → ∀ r ∈ l, k'.known b r.filename := by
  refine ⟨Or.inr hb, fun m => ?_⟩
  refine ⟨⟨fun _ _ h => Or.inl h, fun _ h => h⟩, ?_⟩
  intro l hl r hr
  cases hl
  exact Or.inr ⟨rfl, r, hr, rfl⟩

theorem decentP_article {b f : Bytes} {k : Ken} (hb : k.known b f) : DecentP R draft (Prog.article b f) k fun _ k' => KnowsAll k k' := by
  refine ⟨hb, fun m => ?_⟩
  simp only [intended]
  cases m.need (.article b f) <;> exact ⟨fun _ _ h => h, fun _ h => h⟩

theorem decentP_userArticleLoop (user : Bytes) (bs : List BoardHeader) : ∀ k k0 : Ken, KnowsAll k0 k → (∀ b ∈ bs, k.boards b.brdName) →
    DecentP R draft (Prog.userArticleLoop user bs) k fun _ k' => KnowsAll k0 k' := by
  induction bs with
  | nil => exact fun k k0 h _ => h
  | cons b bs ih =>
    intro k k0 h hb
    have hb' : ∀ b' ∈ bs, k.boards b'.brdName := fun b' h' => hb b' (List.mem_cons_of_mem _ h')
    unfold Prog.userArticleLoop
    split
    · exact ih k k0 h hb'
    · refine decentP_andThen (decentP_articles (hb b (List.mem_cons_self ..))) ?_ ?_
      · rintro l k1 ⟨h1, _⟩
        have h01 : KnowsAll k0 k1 := ⟨fun b f x => h1.1 b f (h.1 b f x), fun b x => h1.2 b (h.2 b x)⟩
        exact decentP_andThen (ih k1 k0 h01 fun b' h' => h1.2 _ (hb' b' h')) (fun _ _ h => h) (fun _ _ h => h)
      · rintro x k1 ⟨h1, _⟩
        exact ⟨fun b f x => h1.1 b f (h.1 b f x), fun b x => h1.2 b (h.2 b x)⟩

theorem userArticles_decent (hb : R.placed .boardList) (user : Bytes) : Decent R draft (Prog.userArticles user).script Ken.blank := by
  refine decentP_script (Q := fun _ k' => KnowsAll Ken.blank k') (decentP_andThen (decentP_boards hb _) ?_ (fun _ _ h => h.1))
  rintro bs k ⟨h1, h2⟩
  exact decentP_userArticleLoop user bs k _ h1 (h2 bs rfl)

theorem decentP_boardUserCommentLoop (b user : Bytes) (l : List FileHeader) : ∀ k k0 : Ken, KnowsAll k0 k → (∀ r ∈ l, k.known b r.filename) →
    DecentP R draft (Prog.boardUserCommentLoop b user l) k fun _ k' => KnowsAll k0 k' := by
  induction l with
  | nil => exact fun k k0 h _ => h
  | cons r l ih =>
    intro k k0 h hb
    have hb' : ∀ r' ∈ l, k.known b r'.filename := fun b' h' => hb b' (List.mem_cons_of_mem _ h')
    refine decentP_andThen (Q := fun _ k' => KnowsAll k k') (decentP_andThen (decentP_article (hb r (List.mem_cons_self ..))) (fun _ _ h => h) (fun _ _ h => h)) ?_ ?_
    · rintro l k1 h1
      have h01 : KnowsAll k0 k1 := ⟨fun b f x => h1.1 b f (h.1 b f x), fun b x => h1.2 b (h.2 b x)⟩
      exact decentP_andThen (ih k1 k0 h01 fun b' h' => h1.1 _ _ (hb' b' h')) (fun _ _ h => h) (fun _ _ h => h)
    · rintro x k1 h1
      exact ⟨fun b f x => h1.1 b f (h.1 b f x), fun b x => h1.2 b (h.2 b x)⟩

theorem decentP_userCommentLoop (user : Bytes) (bs : List BoardHeader) : ∀ k k0 : Ken, KnowsAll k0 k → (∀ b ∈ bs, k.boards b.brdName) →
    DecentP R draft (Prog.userCommentLoop user bs) k fun _ k' => KnowsAll k0 k' := by
  induction bs with
  | nil => exact fun k k0 h _ => h
  | cons b bs ih =>
    intro k k0 h hb
    have hb' : ∀ b' ∈ bs, k.boards b'.brdName := fun b' h' => hb b' (List.mem_cons_of_mem _ h')
    unfold Prog.userCommentLoop
    split
    · exact ih k k0 h hb'
    · refine decentP_andThen (Q := fun _ k' => KnowsAll k k') (decentP_andThen (decentP_articles (hb b (List.mem_cons_self ..))) ?_ (fun _ _ h => h.1)) ?_ ?_
      · rintro l k1 ⟨h1, h2⟩
        exact decentP_boardUserCommentLoop b.brdName user l k1 k h1 (h2 l rfl)
      · rintro l k1 h1
        have h01 : KnowsAll k0 k1 := ⟨fun b f x => h1.1 b f (h.1 b f x), fun b x => h1.2 b (h.2 b x)⟩
        exact decentP_andThen (ih k1 k0 h01 fun b' h' => h1.2 _ (hb' b' h')) (fun _ _ h => h) (fun _ _ h => h)
      · rintro x k1 h1
        exact ⟨fun b f x => h1.1 b f (h.1 b f x), fun b x => h1.2 b (h.2 b x)⟩

theorem userComments_decent (hb : R.placed .boardList) (user : Bytes) : Decent R draft (Prog.userComments user).script Ken.blank := by
  refine decentP_script (Q := fun _ k' => KnowsAll Ken.blank k') (decentP_andThen (decentP_boards hb _) ?_ (fun _ _ h => h.1))
  rintro bs k ⟨h1, h2⟩
  exact decentP_userCommentLoop user bs k _ h1 (h2 bs rfl)

end

/-! ## They put nothing into a list -/

theorem quiet_bind {α β : Type} {P : Prog α} {f : α → Prog β} (h : Quiet P.script) (hf : ∀ a, Quiet (f a).script) : Quiet (P.bind f).script := by
  induction P with
  | ret a => exact hf a
  | ask op next ih => exact ⟨h.1, fun r => ih r (h.2 r)⟩

theorem quiet_andThen {α β : Type} {P : Prog (Res α)} {f : α → Prog (Res β)} (h : Quiet P.script) (hf : ∀ a, Quiet (f a).script) :
    Quiet (P.andThen f).script := quiet_bind h fun a => by
  cases a with
  | ok a => exact hf a
  | err e => trivial
  | panic => trivial
  | diverge => trivial

theorem quiet_boards : Quiet Prog.boards.script := by
  refine ⟨(by intro b r e; cases e), fun r => ?_⟩
  dsimp only
  split <;> trivial

theorem quiet_articles (b : Bytes) : Quiet (Prog.articles b).script := by
  refine ⟨(by intro b r e; cases e), fun r => ?_⟩
  dsimp only
  split <;> trivial

theorem quiet_article (b f : Bytes) : Quiet (Prog.article b f).script := by
  refine ⟨(by intro b r e; cases e), fun r => ?_⟩
  dsimp only
  split <;> trivial

theorem quiet_userArticles (user : Bytes) : Quiet (Prog.userArticles user).script := by
  refine quiet_andThen quiet_boards fun bs => ?_
  induction bs with
  | nil => trivial
  | cons b bs ih =>
    unfold Prog.userArticleLoop
    split
    · exact ih
    · exact quiet_andThen (quiet_articles _) fun _ => quiet_andThen ih fun _ => trivial

theorem quiet_boardUserComments (b user : Bytes) : Quiet (Prog.boardUserComments b user).script := by
  refine quiet_andThen (quiet_articles b) fun l => ?_
  induction l with
  | nil => trivial
  | cons r l ih => exact quiet_andThen (quiet_andThen (quiet_article _ _) fun _ => trivial) fun _ => quiet_andThen ih fun _ => trivial

theorem quiet_userComments (user : Bytes) : Quiet (Prog.userComments user).script := by
  refine quiet_andThen quiet_boards fun bs => ?_
  induction bs with
  | nil => trivial
  | cons b bs ih =>
    unfold Prog.userCommentLoop
    split
    · exact ih
    · exact quiet_andThen (quiet_boardUserComments _ _) fun _ => quiet_andThen ih fun _ => trivial

end Verif
