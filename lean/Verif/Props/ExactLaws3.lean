import Verif.Props.Routes
import Verif.Props.Factory
import Verif.Props.OnlineFile
import Verif.Props.Log
/-!
# Where claims that are false fail, exactly (C55, C72, C115), and what is logged of unclean paths (C150)
-/

namespace Verif

open Spec

/-! ## C55 -/

/-- **C55 (exact)**, which requests get the data of a user: those with the method GET whose path is `/v1/users/NAME/information`, with anything
behind it that is clean, if there is a record of that name. -/
theorem C55_served (sign : Claims → Bytes) (st : ServerState) (r : Request) (d : UserData) :
    serve sign st r = .ok (.userInfo d) ↔ r.method = ascii "GET" ∧ ∃ i more tr u, PlainSegment i ∧ (∀ s ∈ more, PlainSegment s) ∧
      r.path = render (ascii "v1" :: ascii "users" :: i :: ascii "information" :: more) tr ∧ FirstWithID st.userRecs i u ∧ d = u.userData := by
  constructor
  · intro h
    obtain ⟨hm, j, more, u, hj, hp, _, hf, hd, _⟩ := C55_own_data_partial sign st r d h
    have hc : r.method ≠ ascii "CONNECT" := by rw [hm]; decide
    have hstar : r.path ≠ ascii "*" := by
      intro e
      rw [hp] at e
      exact absurd (congrArg List.head? e) (by simp [ascii])
    have hcan : r.path = render (resolve [] r.path) (r.path.getLast? = some slash) := by
      by_cases e : r.path = render (resolve [] r.path) (r.path.getLast? = some slash)
      · exact e
      · obtain ⟨tr, he⟩ := (C63_redirect sign st r hc hstar).2 e
        rw [h] at he
        injection he with he
        cases he
    have hpl := resolve_plain r.path
    generalize resolve [] r.path = segs at hcan hpl
    generalize decide (r.path.getLast? = some slash) = tr at hcan
    refine ⟨hm, ?_⟩
    have hpre : (ascii "/v1/" ++ ascii "users" ++ [slash]).isPrefixOf (render segs tr) = true := by
      rw [← hcan, hp, List.isPrefixOf_iff_prefix, List.append_assoc, List.append_assoc]
      exact List.prefix_append _ _
    obtain ⟨h2, h3⟩ := (render_below (ascii "users") plain_names.2.2.2.1 segs tr hpl).mp hpre
    match segs, h2 with
    | a :: b :: rest, h2 =>
      simp only [List.take_succ_cons, List.take_zero, List.cons.injEq, and_true] at h2
      obtain ⟨rfl, rfl⟩ := h2
      have hrest : ∀ s ∈ rest, PlainSegment s := fun s hs => hpl s (by simp [hs])
      have hr : tr = true ∨ rest ≠ [] := by
        rcases h3 with h3 | h3
        · exact .inl h3
        · right; rintro rfl; simp at h3
      obtain ⟨k1, k2, k3, k4⟩ := C63_users sign st r rest tr hm hrest hr hcan
      by_cases hi : rest[1]? = some (ascii "information")
      · match rest, hi with
        | x :: y :: more', hi =>
          simp only [List.getElem?_cons_succ, List.getElem?_cons_zero, Option.some.injEq] at hi
          subst hi
          by_cases hu : ∀ u ∈ st.userRecs, u.userID ≠ x
          · rw [k2 rfl hu] at h
            injection h with h
            cases h
          · rcases findUserecByID_cases st.userRecs x with ⟨w, hw⟩ | he
            · have hfw := (findUserecByID_ok _ _ _).1 hw
              rw [k1 rfl w hfw] at h
              injection h with h
              injection h with h
              exact ⟨x, more', tr, w, hrest x (by simp), fun s hs => hrest s (by simp [hs]), hcan, hfw, h.symm⟩
            · exact absurd ((findUserecByID_err _ _).1 he) hu
      · by_cases hv : rest[1]? = some (ascii "favorites")
        · rw [k3 hv] at h; injection h with h; cases h
        · rw [k4 hi hv] at h; injection h with h; cases h
    | [], h2 => simp at h2
    | [_], h2 => simp at h2
  · rintro ⟨hm, i, more, tr, u, hi, hmore, hp, hf, rfl⟩
    refine (C63_users sign st r (i :: ascii "information" :: more) tr hm ?_ (.inr (by simp)) hp).1 rfl u hf
    intro s hs
    rcases List.mem_cons.mp hs with rfl | hs
    · exact hi
    · rcases List.mem_cons.mp hs with rfl | hs
      · exact ⟨by decide, by decide, by decide, by decide⟩
      · exact hmore s hs

/-- **C55 (exact)**, which policies the service keeps to: only those that permit every token to read about every user whose name is a path
component. -/
theorem C55_exact (permits : Bytes → Permission → Bytes → Prop) :
    Spec.C55 permits ↔ ∀ token i, (32 : UInt8) ∉ token → PlainSegment i → permits token .readUserInformation i := by
  constructor
  · intro hc token i ht hi
    have hf : FirstWithID [{ emptyRecord with userID := i }] i { emptyRecord with userID := i } := ⟨[], [], rfl, rfl, by simp⟩
    have h := hc (fun _ => []) ⟨[{ emptyRecord with userID := i }], []⟩ _ _
      (C55_anyone _ _ _ i (ascii "bearer" ++ 32 :: token) [] [] hi hf)
    rwa [C63_token_header _ (ascii "bearer") token [] (by decide) ht (by simp)] at h
  · intro hall sign st r d h
    obtain ⟨_, i, more, tr, u, hi, _, _, hf, rfl⟩ := (C55_served sign st r d).mp h
    have : u.userData.userID = i := hf.mem.2
    rw [this]
    refine hall _ i ?_ hi
    unfold getTokenFromRequest
    have hn := splitByte_not_mem 32 r.auth
    split
    · rename_i x t l e
      exact hn t (by rw [e]; simp)
    · simp

/-- A clean path with more behind it, and a name that is a path component. -/
example : PlainSegment (ascii "SYSOP") ∧ (∀ s ∈ [ascii "x"], PlainSegment s) ∧
    render (ascii "v1" :: ascii "users" :: ascii "SYSOP" :: ascii "information" :: [ascii "x"]) true = ascii "/v1/users/SYSOP/information/x/" := by
  refine ⟨⟨by decide, by decide, by decide, by decide⟩, ?_, by decide⟩
  simp only [List.mem_singleton, forall_eq]
  exact ⟨by decide, by decide, by decide, by decide⟩

/-! ## C72 -/

/-- The mark `p` stands in `x ++ p ++ y` only behind `x`. -/
def Spec.Once (x p y : Bytes) : Prop := ∀ x' y', x ++ p ++ y = x' ++ p ++ y' → x' = x

theorem once_snd {x p y x' y' : Bytes} (h : Once x p y) (e : x ++ p ++ y = x' ++ p ++ y') : x' = x ∧ y' = y := by
  have := h x' y' e
  subst this
  exact ⟨rfl, (List.append_cancel_left e).symm⟩

/-- Two places for a mark in one text: the later one lies inside what follows the start of the earlier one. -/
theorem append_later {x y x' y' : Bytes} (e : x ++ y = x' ++ y') (h : x.length ≤ x'.length) : ∃ z, x' = x ++ z ∧ y = z ++ y' := by
  rcases List.append_eq_append_iff.mp e with ⟨z, a, b⟩ | ⟨z, a, b⟩
  · exact ⟨z, a, b⟩
  · have : z = [] := List.length_eq_zero_iff.mp (by have := congrArg List.length a; simp only [List.length_append] at this; omega)
    subst this
    exact ⟨[], by simpa using a.symm, by simpa using b.symm⟩

/-- Where the mark `p` stands once in `x ++ p ++ y`, another place for it in `x ++ p ++ y ++ w` reaches into `w`. -/
theorem once_reaches {x p y w x' z : Bytes} (h : Once x p y) (e : x ++ p ++ y ++ w = x' ++ p ++ z) :
    x' = x ∨ (x ++ p ++ y).length < (x' ++ p).length := by
  by_cases hl : (x' ++ p).length ≤ (x ++ p ++ y).length
  · left
    obtain ⟨v, hv, _⟩ := append_later e.symm hl
    exact h x' v hv
  · right; omega

/-- Four texts with three marks between them. -/
theorem marks_exact (p q r o b t d : Bytes) :
    (∀ o' b' t' d', o ++ p ++ b ++ q ++ t ++ r ++ d = o' ++ p ++ b' ++ q ++ t' ++ r ++ d' → o' = o ∧ b' = b ∧ t' = t ∧ d' = d) ↔
      Once o p b ∧ Once b q t ∧ Once t r d := by
  constructor
  · intro h
    refine ⟨fun x y e => ?_, fun x y e => ?_, fun x y e => ?_⟩
    · exact (h x y t d (by rw [e])).1
    · exact (h o x y d (by have e' := congrArg (fun z => o ++ p ++ z ++ r ++ d) e; simpa using e')).2.1
    · exact (h o b x y (by simp only [List.append_assoc] at e ⊢; rw [e])).2.2.1
  · rintro ⟨h1, h2, h3⟩ o' b' t' d' e
    have last : ∀ {x y z : Bytes}, b ++ q ++ t ++ (r ++ d) = x ++ q ++ (y ++ r ++ z) → ¬ (b ++ q ++ t).length < (x ++ q).length := by
      intro x y z e hlt
      obtain ⟨v, hv, hw⟩ := append_later (x := b ++ q) (y := t ++ r ++ d) (x' := x ++ q ++ y) (y' := r ++ z)
        (by simpa using e) (by simp only [List.length_append] at hlt ⊢; omega)
      have := h3 v z (by simpa using hw)
      subst this
      have := congrArg List.length hv
      simp only [List.length_append] at this hlt
      omega
    rcases once_reaches (w := q ++ t ++ r ++ d) (x' := o') (z := b' ++ q ++ t' ++ r ++ d') h1 (by simpa using e) with rfl | hlt
    · have e' : b ++ q ++ t ++ (r ++ d) = b' ++ q ++ (t' ++ r ++ d') := by simpa using e
      rcases once_reaches h2 e' with rfl | hlt
      · obtain ⟨a, c⟩ := once_snd h3 (x' := t') (y' := d') (by simpa using e')
        exact ⟨rfl, rfl, a, c⟩
      · exact absurd hlt (last e')
    · obtain ⟨v, hv, hw⟩ := append_later (x := o ++ p) (y := b ++ q ++ t ++ r ++ d) (x' := o' ++ p ++ b') (y' := q ++ t' ++ r ++ d')
        (by simpa using e) (by simp only [List.length_append] at hlt ⊢; omega)
      have e' : b ++ q ++ t ++ (r ++ d) = v ++ q ++ (t' ++ r ++ d') := by simpa using hw
      rcases once_reaches h2 e' with rfl | hlt'
      · have := congrArg List.length hv
        simp only [List.length_append] at this hlt
        omega
      · exact absurd hlt' (last e')

/-- **C72 (exact).** The first lines of an article tell its author, board, title and time exactly if the words for the board stand nowhere else
in author and board, the words for the title nowhere else in board and title, and the words for the time nowhere else in title and time. -/
theorem C72_exact (o b t d : Bytes) :
    (∀ o' b' t' d', articleHead o b t d = articleHead o' b' t' d' → o' = o ∧ b' = b ∧ t' = t ∧ d' = d) ↔
      Once o (utf8Text (points " 看板: ")) b ∧ Once b (utf8Text (points "\n標題: ")) t ∧ Once t (utf8Text (points " \n時間: ")) d := by
  have h2 : boardLabel = utf8Text (points " 看板: ") := by decide +kernel
  have h3 : titleLabel = utf8Text (points "\n標題: ") := by decide +kernel
  have h4 : dateLabel = utf8Text (points " \n時間: ") := by decide +kernel
  rw [← h2, ← h3, ← h4]
  rw [← marks_exact]
  unfold articleHead
  constructor
  · intro h o' b' t' d' e
    refine h o' b' t' d' ?_
    simp only [List.append_assoc] at e ⊢
    rw [List.append_cancel_left_eq]
    have := congrArg (· ++ [0x0A]) e
    simpa using this
  · intro h o' b' t' d' e
    refine h o' b' t' d' ?_
    have e1 := List.append_cancel_right e
    simp only [List.append_assoc] at e1 ⊢
    exact List.append_cancel_left e1

/-- A title with a line of its own is told; one that contains the line of the time is not. -/
example : Once (ascii "a") boardLabel (ascii "b") ∧ ¬ Once (ascii "hi" ++ dateLabel ++ ascii "1") dateLabel (ascii "2") := by
  refine ⟨?_, fun h => ?_⟩
  · intro x y e
    match x, e with
    | [], e => simp [ascii, boardLabel] at e
    | [z], e =>
      have := congrArg List.head? e
      simp [ascii] at this
      rw [← this]; rfl
    | z :: z' :: x, e =>
      have := congrArg List.length e
      simp [ascii, boardLabel] at this
      have hx : x = [] := List.length_eq_zero_iff.mp (by omega)
      subst hx
      simp [ascii, boardLabel] at e
  · have := h (ascii "hi") (ascii "1" ++ dateLabel ++ ascii "2") (by decide)
    exact absurd this (by decide)

/-! ## C115 -/

/-- **C115 (exact).** Records that fit come back from a file as they were saved exactly if in each of them the ties of five-in-a-row and Chinese
chess agree, the wins of Chinese chess are the Elo rating and its losses the wins of Go. -/
theorem C115_exact (c : Codec) (us : List UserInfo) (hu : ∀ u ∈ us, u.Storable c) :
    openUserInfoCache c (some (us.map (UserInfo.marshal c)).flatten) = .ok us ↔
      ∀ u ∈ us, u.five.tie = u.chineseChess.tie ∧ u.chineseChess.win = u.chessEloRating ∧ u.chineseChess.lose = u.goChess.win := by
  have h := C115_roundtrip_partial c us hu [] (by simp)
  rw [List.append_nil] at h
  rw [h, if_pos rfl, List.append_nil]
  constructor
  · intro e u hm
    have := List.map_inj_left.mp ((Res.ok.inj e).trans (List.map_id us).symm) u hm
    refine ⟨?_, ?_, ?_⟩
    · exact (congrArg (fun v : UserInfo => v.five.tie) this).symm
    · exact (congrArg (fun v : UserInfo => v.chineseChess.win) this).symm
    · exact (congrArg (fun v : UserInfo => v.chineseChess.lose) this).symm
  · intro e
    congr 1
    refine (List.map_congr_left fun u hm => ?_).trans (List.map_id _)
    obtain ⟨e1, e2, e3⟩ := e u hm
    have f : ({ u.five with tie := u.chineseChess.tie } : GameScore) = u.five := by rw [← e1]
    have g : ({ u.chineseChess with win := u.chessEloRating, lose := u.goChess.win } : GameScore) = u.chineseChess := by rw [← e2, ← e3]
    show ({ u with
      five := { u.five with tie := u.chineseChess.tie }
      chineseChess := { u.chineseChess with win := u.chessEloRating, lose := u.goChess.win } } : UserInfo) = u
    rw [f, g]

/-- A record whose scores agree, and the sample, whose scores do not. -/
example : ({ sampleOnline with chineseChess := ⟨1500, 30, 12⟩ } : UserInfo).five.tie = 12 ∧ sampleOnline.five.tie ≠ sampleOnline.chineseChess.tie := by
  decide

/-! ## C150 -/

/-- **C150.** A request that is answered by a redirection or refused by the mux leaves nothing in the log. -/
theorem C150_silent (sign : Claims → Bytes) (shown : Userec → Bytes) (st : ServerState) (r : Request)
    (h : (∃ q, serve sign st r = .ok (.redirect q)) ∨ serve sign st r = .ok .badRequest ∨ serve sign st r = .ok .muxNotFound) : requestLog shown st r = [] := by
  have hnr : ∀ k, (∃ q, runRoute sign st r (some k) = .ok (.redirect q)) ∨ runRoute sign st r (some k) = .ok .badRequest ∨
      runRoute sign st r (some k) = .ok .muxNotFound → False := by
    intro k hk
    have no : ∀ {x : Response}, Res.ok x = runRoute sign st r (some k) → (∀ q, x ≠ .redirect q) → x ≠ .badRequest → x ≠ .muxNotFound → False := by
      intro x hx n1 n2 n3
      rw [← hx] at hk
      rcases hk with ⟨q, e⟩ | e | e
      · exact n1 q (Res.ok.inj e)
      · exact n2 (Res.ok.inj e)
      · exact n3 (Res.ok.inj e)
    cases k with
    | token =>
      rcases postToken_cases sign st r with ⟨u, hu, k | k | k⟩ | k
      all_goals
        by_cases hm : r.method = ascii "POST"
        · have e : runRoute sign st r (some .token) = postToken sign st r := by simp [runRoute, routeToken, hm]
          first
            | exact no (e.trans k.2).symm (by simp) (by simp) (by simp)
            | exact no (e.trans k.2.2).symm (by simp) (by simp) (by simp)
            | (rw [e, k.2.2] at hk; simp at hk)
        · exact no (x := .empty) (by simp [runRoute, routeToken, hm]) (by simp) (by simp) (by simp)
    | boards =>
      by_cases hm : r.method = ascii "GET"
      · exact no (x := .boards st.boardHeader) (by simp [runRoute, routeBoards, hm]) (by simp) (by simp) (by simp)
      · exact no (x := .empty) (by simp [runRoute, routeBoards, hm]) (by simp) (by simp) (by simp)
    | classes =>
      by_cases hm : r.method = ascii "GET"
      · exact no (x := .notImplemented) (by simp [runRoute, routeClasses, hm]) (by simp) (by simp) (by simp)
      · exact no (x := .empty) (by simp [runRoute, routeClasses, hm]) (by simp) (by simp) (by simp)
    | users =>
      by_cases hm : r.method = ascii "GET"
      · have e : runRoute sign st r (some .users) = getUsers st r := by simp [runRoute, routeUsers, hm]
        rw [e] at hk
        unfold getUsers getUserInformation checkTokenPermission at hk
        rcases hp : parseUserPath r.path with ⟨a, b⟩ | _ | _ | _ <;> rw [hp] at hk
        · rw [Res.ok_bind] at hk
          simp only at hk
          split at hk
          · rcases findUserecByID_cases st.userRecs a with ⟨w, hw⟩ | he
            · rw [hw] at hk; simp at hk
            · rw [he] at hk; simp at hk
          · split at hk <;> simp at hk
        all_goals
          rcases hk with ⟨q, e⟩ | e | e <;> cases e
      · exact no (x := .empty) (by simp [runRoute, routeUsers, hm]) (by simp) (by simp) (by simp)
  have key : ∀ k, (∃ q, runRoute sign st r k = .ok (.redirect q)) ∨ runRoute sign st r k = .ok .badRequest ∨
      runRoute sign st r k = .ok .muxNotFound → routeLog shown st r k = [] := by
    intro k hk
    cases k with
    | none => rfl
    | some k => exact (hnr k hk).elim
  unfold serve at h
  unfold requestLog
  split
  · rfl
  · rename_i h1
    simp only [if_neg h1] at h
    split
    · rename_i h2
      simp only [if_pos h2] at h
      split
      · rfl
      · rename_i h3
        simp only [if_neg h3] at h
        exact key _ h
    · rename_i h2
      simp only [if_neg h2] at h
      split
      · rfl
      · rename_i h3
        simp only [not_or] at h3
        simp only [if_neg h3.1, if_neg h3.2] at h
        exact key _ h

/-- The path of a request that would be logged, with a slash too many. -/
example (sign : Claims → Bytes) (shown : Userec → Bytes) :
    serve sign ⟨[], []⟩ ⟨ascii "GET", ascii "/v1//users/a/c", [], [], []⟩ = .ok (.redirect (ascii "/v1/users/a/c")) ∧
    requestLog shown ⟨[], []⟩ ⟨ascii "GET", ascii "/v1/users/a/c", [], [], []⟩ ≠ [] := by
  refine ⟨?_, ?_⟩
  · have h : ∀ f, serve f ⟨[], []⟩ ⟨ascii "GET", ascii "/v1//users/a/c", [], [], []⟩ = serve (fun _ => []) ⟨[], []⟩ ⟨ascii "GET", ascii "/v1//users/a/c", [], [], []⟩ :=
      fun _ => rfl
    rw [h]; decide
  · have h : ∀ f : Userec → Bytes, requestLog f ⟨[], []⟩ ⟨ascii "GET", ascii "/v1/users/a/c", [], [], []⟩ =
        requestLog (fun _ => []) ⟨[], []⟩ ⟨ascii "GET", ascii "/v1/users/a/c", [], [], []⟩ := fun _ => rfl
    rw [h]; decide

end Verif
