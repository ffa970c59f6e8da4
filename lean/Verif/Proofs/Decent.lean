import Verif.Spec.Decent
import Verif.Proofs.Script
/-!
# Helper lemmas for clients that keep to the rules
-/

namespace Verif
open Spec

/-- Everybody may look for the article. -/
def Open (R : Rules) (m : Holding) (k : Nat → Ken) (b f : Bytes) : Prop := Settled R m b f ∧ ∀ p, (k p).own b f = none

/-- The client goes on decently. -/
def TurnOk (R : Rules) (draft : Bytes → Bytes → Prop) (k : Ken) : Turn → Prop
  | .idle s => Decent R draft s k
  | .called op next => Decent R draft (.make op next) k
  | .decided r next => Decent R draft (next r) k

/-- What the clients know is right, and they all go on decently. -/
structure Orderly (R : Rules) (draft : Nat → Bytes → Bytes → Prop) (i : Atomic) (k : Nat → Ken) : Prop where
  boards : ∃ d, i.hold .boardList = some d ∧ 256 ∣ d.length ∧ ∀ r ∈ boardsIn R.c d, R.placed (.articleIndex r.brdName)
  met : ∀ p b, (k p).boards b → R.placed (.articleIndex b)
  lists : ∀ b d, R.placed (.articleIndex b) → i.hold (.articleIndex b) = some d → 128 ∣ d.length
  listed : ∀ b d, R.placed (.articleIndex b) → i.hold (.articleIndex b) = some d → ∀ r ∈ articlesIn R.c d, Open R i.hold k b r.filename
  known : ∀ p b f, (k p).known b f → Open R i.hold k b f
  own : ∀ p b f y, (k p).own b f = some y → R.placed (.article b f) ∧ i.hold (.article b f) = some y
  apart : ∀ p q b f, p ≠ q → (k p).own b f ≠ none → (k q).own b f = none
  fine : ∀ b f y, R.placed (.article b f) → i.hold (.article b f) = some y → (∀ p, (k p).own b f = none) → R.fine b f y
  turns : ∀ p, TurnOk R (draft p) (k p) (i.turn p)

/-- Client `p` has learned. -/
def setKen (k : Nat → Ken) (p : Nat) (x : Ken) : Nat → Ken := fun q => if q = p then x else k q

theorem setKen_self (k : Nat → Ken) (p : Nat) (x : Ken) : setKen k p x p = x := if_pos rfl
theorem setKen_other (k : Nat → Ken) {p q : Nat} (x : Ken) (h : q ≠ p) : setKen k p x q = k q := if_neg h
theorem setKen_same (k : Nat → Ken) (p : Nat) : setKen k p (k p) = k := by
  funext q
  by_cases e : q = p
  · subst e; exact setKen_self ..
  · exact setKen_other k _ e

theorem articlesIn_append (c : Codec) {d : Bytes} (hd : 128 ∣ d.length) (r : FileHeader) :
    articlesIn c (d ++ r.marshal c) = articlesIn c d ++ [storedArticle c r] := by
  obtain ⟨n, hn⟩ := hd
  obtain ⟨rs, h1, rfl, _⟩ := aligned_flatten n d hn
  have h2 : Sized 128 (rs ++ [r.marshal c]) := by
    intro x hx
    rcases List.mem_append.mp hx with hx | hx
    · exact h1 x hx
    · rw [List.mem_singleton.mp hx]; exact r.marshal_length c
  unfold articlesIn
  rw [show rs.flatten ++ r.marshal c = (rs ++ [r.marshal c]).flatten by simp, slots_flatten (by omega) h2, slots_flatten (by omega) h1,
    List.map_append, List.map_singleton, FileHeader.parse_marshal_exact]

theorem boardsIn_append (c : Codec) {d : Bytes} (hd : 256 ∣ d.length) (r : BoardHeader) :
    boardsIn c (d ++ r.marshal c) = boardsIn c d ++ [storedBoard c r] := by
  obtain ⟨n, hn⟩ := hd
  obtain ⟨rs, h1, rfl, _⟩ := aligned_flatten n d hn
  have h2 : Sized 256 (rs ++ [r.marshal c]) := by
    intro x hx
    rcases List.mem_append.mp hx with hx | hx
    · exact h1 x hx
    · rw [List.mem_singleton.mp hx]; exact r.marshal_length c
  unfold boardsIn
  rw [show rs.flatten ++ r.marshal c = (rs ++ [r.marshal c]).flatten by simp, slots_flatten (by omega) h2, slots_flatten (by omega) h1,
    List.map_append, List.map_singleton, BoardHeader.parse_marshal_exact]

theorem keep_own (k : Ken) (b f : Bytes) (x : Option Bytes) (b' f' : Bytes) :
    (k.keep b f x).own b' f' = if b' = b ∧ f' = f then x else k.own b' f' := rfl

section
variable {R : Rules} {draft : Nat → Bytes → Bytes → Prop} {i : Atomic} {k : Nat → Ken}

theorem put_self' (m : Holding) (o : Obj) (x : Option Bytes) : m.put o x o = x := if_pos rfl
theorem put_other' (m : Holding) {o o' : Obj} (x : Option Bytes) (h : o' ≠ o) : m.put o x o' = m o' := if_neg h

theorem turns_set (h : Orderly R draft i k) {m : Holding} {p : Nat} {x : Turn} {k' : Ken} (hx : TurnOk R (draft p) k' x) :
    ∀ q, TurnOk R (draft q) (setKen k p k' q) ((i.setTurn m p x).turn q) := by
  intro q
  by_cases e : q = p
  · subst e; rw [setTurn_self, setKen_self]; exact hx
  · rw [setTurn_other _ _ _ e, setKen_other _ _ e]; exact h.turns q

/-- A step that changes neither the contents nor what the client knows. -/
theorem orderly_same (h : Orderly R draft i k) {m : Holding} {p : Nat} {x : Turn} {k' : Ken} (hm : m = i.hold) (hk : k' = k p)
    (hx : TurnOk R (draft p) k' x) : Orderly R draft (i.setTurn m p x) (setKen k p k') := by
  have ht := turns_set h (m := m) hx
  subst hm hk
  rw [setKen_same] at ht ⊢
  exact ⟨h.boards, h.met, h.lists, h.listed, h.known, h.own, h.apart, h.fine, ht⟩

/-- A step that changes something that is neither a list nor an article. -/
theorem orderly_other (h : Orderly R draft i k) {m : Holding} {p : Nat} {x : Turn} {k' : Ken}
    (hb : ∃ d, m .boardList = some d ∧ 256 ∣ d.length ∧ ∀ r ∈ boardsIn R.c d, R.placed (.articleIndex r.brdName)) (hm : ∀ b, m (.articleIndex b) = i.hold (.articleIndex b))
    (hm' : ∀ b f, m (.article b f) = i.hold (.article b f)) (hk : k' = k p)
    (hx : TurnOk R (draft p) k' x) : Orderly R draft (i.setTurn m p x) (setKen k p k') := by
  have ht := turns_set h (m := m) hx
  subst hk
  rw [setKen_same] at ht ⊢
  have ho : ∀ b f, Open R i.hold k b f → Open R m k b f := by
    intro b f ⟨⟨h1, h2⟩, h3⟩
    exact ⟨⟨h1, by rw [hm']; exact h2⟩, h3⟩
  refine ⟨hb, h.met, ?_, ?_, fun p b f hf => ho _ _ (h.known p b f hf), ?_, h.apart, ?_, ht⟩
  · intro b d h1 h2
    exact h.lists b d h1 (by rw [← hm]; exact h2)
  · intro b d h1 h2 r hr
    exact ho _ _ (h.listed b d h1 (by rw [← hm]; exact h2) r hr)
  · intro p b f y hy
    exact ⟨(h.own p b f y hy).1, (hm' b f).trans (h.own p b f y hy).2⟩
  · intro b f y h1 h2 h3
    exact h.fine b f y h1 (by rw [← hm']; exact h2) h3

/-- A step that creates or changes an article that is private afterwards. -/
theorem orderly_own (h : Orderly R draft i k) {p : Nat} {x : Turn} {b f y : Bytes} (hp : R.placed (.article b f))
    (hfree : (k p).own b f ≠ none ∨ (i.hold (.article b f) = none ∧ ∃ t n, f = DB.articleName t n))
    (hx : TurnOk R (draft p) ((k p).keep b f (some y)) x) :
    Orderly R draft (i.setTurn (i.hold.put (.article b f) (some y)) p x) (setKen k p ((k p).keep b f (some y))) := by
  have ht := turns_set h (m := i.hold.put (.article b f) (some y)) hx
  have none_own : ∀ q, q ≠ p → (k q).own b f = none := by
    intro q hq
    rcases hfree with e | ⟨e, _⟩
    · exact h.apart p q b f (fun e' => hq e'.symm) e
    · cases hk : (k q).own b f with
      | none => rfl
      | some z => have := (h.own q b f z hk).2; rw [e] at this; cases this
  have notOpen : ∀ b' f', Open R i.hold k b' f' → ¬ (b' = b ∧ f' = f) := by
    rintro b' f' ⟨⟨_, h2⟩, h3⟩ ⟨rfl, rfl⟩
    rcases hfree with e | ⟨e, t, n, hn⟩
    · exact e (h3 p)
    · rcases h2 with h2 | h2
      · exact h2 e
      · exact h2 t n hn
  have ownEq : ∀ q b' f', ¬ (b' = b ∧ f' = f) → (setKen k p ((k p).keep b f (some y)) q).own b' f' = (k q).own b' f' := by
    intro q b' f' hne
    by_cases e : q = p
    · subst e; rw [setKen_self, keep_own, if_neg hne]
    · rw [setKen_other _ _ e]
  have holdEq : ∀ b' f', ¬ (b' = b ∧ f' = f) → i.hold.put (.article b f) (some y) (.article b' f') = i.hold (.article b' f') := by
    intro b' f' hne
    exact put_other' _ _ (fun e => hne (by cases e; exact ⟨rfl, rfl⟩))
  have idxEq : ∀ b', i.hold.put (.article b f) (some y) (.articleIndex b') = i.hold (.articleIndex b') :=
    fun b' => put_other' _ _ (by intro e; cases e)
  have ho : ∀ b' f', Open R i.hold k b' f' → Open R (i.hold.put (.article b f) (some y)) (setKen k p ((k p).keep b f (some y))) b' f' := by
    intro b' f' hO
    have hne := notOpen b' f' hO
    obtain ⟨⟨h1, h2⟩, h3⟩ := hO
    exact ⟨⟨h1, by rw [holdEq b' f' hne]; exact h2⟩, fun q => by rw [ownEq q b' f' hne]; exact h3 q⟩
  refine ⟨?_, ?_, ?_, ?_, ?_, ?_, ?_, ?_, ht⟩
  · show ∃ d, i.hold.put (.article b f) (some y) .boardList = some d ∧ _
    rw [put_other' _ _ (by intro e; cases e)]
    exact h.boards
  · intro q b' hq
    by_cases e : q = p
    · subst e; rw [setKen_self] at hq; exact h.met q b' hq
    · rw [setKen_other _ _ e] at hq; exact h.met q b' hq
  · intro b' d h1 h2
    exact h.lists b' d h1 ((idxEq b').symm.trans h2)
  · intro b' d h1 h2 r hr
    exact ho _ _ (h.listed b' d h1 ((idxEq b').symm.trans h2) r hr)
  · intro q b' f' hq
    by_cases e : q = p
    · subst e; rw [setKen_self] at hq; exact ho _ _ (h.known q b' f' hq)
    · rw [setKen_other _ _ e] at hq; exact ho _ _ (h.known q b' f' hq)
  · intro q b' f' z hz
    show R.placed _ ∧ i.hold.put (.article b f) (some y) _ = _
    by_cases hbf : b' = b ∧ f' = f
    · obtain ⟨rfl, rfl⟩ := hbf
      refine ⟨hp, ?_⟩
      rw [put_self']
      by_cases e : q = p
      · subst e; rw [setKen_self, keep_own, if_pos ⟨rfl, rfl⟩] at hz; exact hz
      · rw [setKen_other _ _ e, none_own q e] at hz; cases hz
    · rw [ownEq q b' f' hbf] at hz
      rw [holdEq b' f' hbf]
      exact h.own q b' f' z hz
  · intro q q' b' f' hqq hq
    by_cases hbf : b' = b ∧ f' = f
    · obtain ⟨rfl, rfl⟩ := hbf
      by_cases e : q' = p
      · subst e
        rw [setKen_other _ _ hqq, none_own q hqq] at hq
        exact absurd rfl hq
      · rw [setKen_other _ _ e]; exact none_own q' e
    · rw [ownEq q b' f' hbf] at hq
      rw [ownEq q' b' f' hbf]
      exact h.apart q q' b' f' hqq hq
  · intro b' f' z h1 h2 h3
    by_cases hbf : b' = b ∧ f' = f
    · obtain ⟨rfl, rfl⟩ := hbf
      have := h3 p
      rw [setKen_self, keep_own, if_pos ⟨rfl, rfl⟩] at this
      cases this
    · exact h.fine b' f' z h1 ((holdEq b' f' hbf).symm.trans h2) (fun q => by rw [← ownEq q b' f' hbf]; exact h3 q)

/-- A step that adds to an article that anybody may look for. -/
theorem orderly_open (h : Orderly R draft i k) (hf : ∀ b f y x, R.fine b f y → R.adds x → R.fine b f (y ++ x)) {p : Nat} {t : Turn} {b f y x : Bytes}
    (ho : Open R i.hold k b f) (hadd : R.adds x) (hy : i.hold (.article b f) = some y) {k' : Ken} (hk : k' = k p) (hx : TurnOk R (draft p) k' t) :
    Orderly R draft (i.setTurn (i.hold.put (.article b f) (some (y ++ x))) p t) (setKen k p k') := by
  have ht := turns_set h (m := i.hold.put (.article b f) (some (y ++ x))) hx
  subst hk
  rw [setKen_same] at ht ⊢
  have holdEq : ∀ b' f', ¬ (b' = b ∧ f' = f) → i.hold.put (.article b f) (some (y ++ x)) (.article b' f') = i.hold (.article b' f') := by
    intro b' f' hne
    exact put_other' _ _ (fun e => hne (by cases e; exact ⟨rfl, rfl⟩))
  have idxEq : ∀ b', i.hold.put (.article b f) (some (y ++ x)) (.articleIndex b') = i.hold (.articleIndex b') :=
    fun b' => put_other' _ _ (by intro e; cases e)
  have hO : ∀ b' f', Open R i.hold k b' f' → Open R (i.hold.put (.article b f) (some (y ++ x))) k b' f' := by
    intro b' f' ⟨⟨h1, h2⟩, h3⟩
    refine ⟨⟨h1, ?_⟩, h3⟩
    by_cases hbf : b' = b ∧ f' = f
    · obtain ⟨rfl, rfl⟩ := hbf
      rw [put_self']; exact Or.inl (by simp)
    · rw [holdEq b' f' hbf]; exact h2
  refine ⟨?_, h.met, ?_, ?_, ?_, ?_, h.apart, ?_, ht⟩
  · show ∃ d, i.hold.put (.article b f) (some (y ++ x)) .boardList = some d ∧ _
    rw [put_other' _ _ (by intro e; cases e)]
    exact h.boards
  · intro b' d h1 h2
    exact h.lists b' d h1 ((idxEq b').symm.trans h2)
  · intro b' d h1 h2 r hr
    exact hO _ _ (h.listed b' d h1 ((idxEq b').symm.trans h2) r hr)
  · intro q b' f' hq
    exact hO _ _ (h.known q b' f' hq)
  · intro q b' f' z hz
    show R.placed _ ∧ i.hold.put (.article b f) (some (y ++ x)) _ = _
    rw [holdEq b' f' (by rintro ⟨rfl, rfl⟩; rw [ho.2 q] at hz; cases hz)]
    exact h.own q b' f' z hz
  · intro b' f' z h1 h2 h3
    have h2 : i.hold.put (.article b f) (some (y ++ x)) (.article b' f') = some z := h2
    by_cases hbf : b' = b ∧ f' = f
    · obtain ⟨rfl, rfl⟩ := hbf
      rw [put_self'] at h2
      rw [← Option.some.inj h2]
      exact hf _ _ _ _ (h.fine _ _ _ h1 hy h3) hadd
    · rw [holdEq b' f' hbf] at h2
      exact h.fine b' f' z h1 h2 h3

/-- A step in which a client learns of articles that anybody may look for. -/
theorem orderly_learn (h : Orderly R draft i k) {p : Nat} {t : Turn} {b : Bytes} {names : Bytes → Prop}
    (ho : ∀ f, names f → Open R i.hold k b f) (hx : TurnOk R (draft p) ((k p).learn b names) t) :
    Orderly R draft (i.setTurn i.hold p t) (setKen k p ((k p).learn b names)) := by
  have ht := turns_set h (m := i.hold) hx
  have ownEq : ∀ q, (setKen k p ((k p).learn b names) q).own = (k q).own := by
    intro q
    by_cases e : q = p
    · subst e; rw [setKen_self]; rfl
    · rw [setKen_other _ _ e]
  have hO : ∀ b' f', Open R i.hold k b' f' → Open R i.hold (setKen k p ((k p).learn b names)) b' f' :=
    fun b' f' ⟨h1, h2⟩ => ⟨h1, fun q => by rw [ownEq]; exact h2 q⟩
  refine ⟨h.boards, ?_, h.lists, fun b' d h1 h2 r hr => hO _ _ (h.listed b' d h1 h2 r hr), ?_, ?_, ?_, ?_, ht⟩
  · intro q b' hq
    by_cases e : q = p
    · subst e; rw [setKen_self] at hq; exact h.met q b' hq
    · rw [setKen_other _ _ e] at hq; exact h.met q b' hq
  · intro q b' f' hq
    by_cases e : q = p
    · subst e
      rw [setKen_self] at hq
      rcases hq with hq | ⟨rfl, hq⟩
      · exact hO _ _ (h.known q b' f' hq)
      · exact hO _ _ (ho f' hq)
    · rw [setKen_other _ _ e] at hq
      exact hO _ _ (h.known q b' f' hq)
  · intro q b' f' y hy
    rw [ownEq] at hy
    exact h.own q b' f' y hy
  · intro q q' b' f' hqq hq
    rw [ownEq] at hq ⊢
    exact h.apart q q' b' f' hqq hq
  · intro b' f' y h1 h2 h3
    exact h.fine b' f' y h1 h2 (fun q => by rw [← ownEq]; exact h3 q)

/-- A step in which a client learns of boards that have a place. -/
theorem orderly_meet (h : Orderly R draft i k) {p : Nat} {t : Turn} {names : Bytes → Prop}
    (ho : ∀ b, names b → R.placed (.articleIndex b)) (hx : TurnOk R (draft p) ((k p).meet names) t) :
    Orderly R draft (i.setTurn i.hold p t) (setKen k p ((k p).meet names)) := by
  have ht := turns_set h (m := i.hold) hx
  have ownEq : ∀ q, (setKen k p ((k p).meet names) q).own = (k q).own := by
    intro q
    by_cases e : q = p
    · subst e; rw [setKen_self]; rfl
    · rw [setKen_other _ _ e]
  have knownEq : ∀ q, (setKen k p ((k p).meet names) q).known = (k q).known := by
    intro q
    by_cases e : q = p
    · subst e; rw [setKen_self]; rfl
    · rw [setKen_other _ _ e]
  have hO : ∀ b' f', Open R i.hold k b' f' → Open R i.hold (setKen k p ((k p).meet names)) b' f' :=
    fun b' f' ⟨h1, h2⟩ => ⟨h1, fun q => by rw [ownEq]; exact h2 q⟩
  refine ⟨h.boards, ?_, h.lists, fun b' d h1 h2 r hr => hO _ _ (h.listed b' d h1 h2 r hr), ?_, ?_, ?_, ?_, ht⟩
  · intro q b' hq
    by_cases e : q = p
    · subst e
      rw [setKen_self] at hq
      rcases hq with hq | hq
      · exact h.met q b' hq
      · exact ho b' hq
    · rw [setKen_other _ _ e] at hq; exact h.met q b' hq
  · intro q b' f' hq
    rw [knownEq] at hq
    exact hO _ _ (h.known q b' f' hq)
  · intro q b' f' y hy
    rw [ownEq] at hy
    exact h.own q b' f' y hy
  · intro q q' b' f' hqq hq
    rw [ownEq] at hq ⊢
    exact h.apart q q' b' f' hqq hq
  · intro b' f' y h1 h2 h3
    exact h.fine b' f' y h1 h2 (fun q => by rw [← ownEq]; exact h3 q)

/-- A step in which a private article stops being private. -/
theorem orderly_publish (h : Orderly R draft i k) {p : Nat} {t : Turn} {b f : Bytes}
    (ho : ∀ y, (k p).own b f = some y → R.fine b f y) (hx : TurnOk R (draft p) ((k p).keep b f none) t) :
    Orderly R draft (i.setTurn i.hold p t) (setKen k p ((k p).keep b f none)) := by
  have ht := turns_set h (m := i.hold) hx
  have ownLe : ∀ q b' f' y, (setKen k p ((k p).keep b f none) q).own b' f' = some y → (k q).own b' f' = some y := by
    intro q b' f' y hy
    by_cases e : q = p
    · subst e
      rw [setKen_self, keep_own] at hy
      split at hy
      · cases hy
      · exact hy
    · rw [setKen_other _ _ e] at hy; exact hy
  have noneLe : ∀ q b' f', (k q).own b' f' = none → (setKen k p ((k p).keep b f none) q).own b' f' = none := by
    intro q b' f' hn
    cases e : (setKen k p ((k p).keep b f none) q).own b' f' with
    | none => rfl
    | some y => rw [ownLe q b' f' y e] at hn; cases hn
  have hO : ∀ b' f', Open R i.hold k b' f' → Open R i.hold (setKen k p ((k p).keep b f none)) b' f' :=
    fun b' f' ⟨h1, h2⟩ => ⟨h1, fun q => noneLe q b' f' (h2 q)⟩
  refine ⟨h.boards, ?_, h.lists, fun b' d h1 h2 r hr => hO _ _ (h.listed b' d h1 h2 r hr), ?_, ?_, ?_, ?_, ht⟩
  · intro q b' hq
    by_cases e : q = p
    · subst e; rw [setKen_self] at hq; exact h.met q b' hq
    · rw [setKen_other _ _ e] at hq; exact h.met q b' hq
  · intro q b' f' hq
    by_cases e : q = p
    · subst e; rw [setKen_self] at hq; exact hO _ _ (h.known q b' f' hq)
    · rw [setKen_other _ _ e] at hq; exact hO _ _ (h.known q b' f' hq)
  · intro q b' f' y hy
    exact h.own q b' f' y (ownLe q b' f' y hy)
  · intro q q' b' f' hqq hq
    refine noneLe q' b' f' (h.apart q q' b' f' hqq ?_)
    intro e
    exact hq (noneLe q b' f' e)
  · intro b' f' y h1 h2 h3
    by_cases hall : ∀ q, (k q).own b' f' = none
    · exact h.fine b' f' y h1 h2 hall
    · by_cases hbf : b' = b ∧ f' = f
      · obtain ⟨rfl, rfl⟩ := hbf
        by_cases hp : ∃ z, (k p).own b' f' = some z
        · obtain ⟨z, hz⟩ := hp
          have := (h.own p b' f' z hz).2
          have h2 : i.hold (.article b' f') = some y := h2
          rw [this] at h2
          rw [← Option.some.inj h2]
          exact ho z hz
        · refine absurd ?_ hall
          intro q
          by_cases e : q = p
          · subst e
            cases hz : (k q).own b' f' with
            | none => rfl
            | some z => exact absurd ⟨z, hz⟩ hp
          · have := h3 q
            rw [setKen_other _ _ e] at this
            exact this
      · refine absurd ?_ hall
        intro q
        have := h3 q
        by_cases e : q = p
        · subst e; rw [setKen_self, keep_own, if_neg hbf] at this; exact this
        · rw [setKen_other _ _ e] at this; exact this

/-- A step that adds a record to a list. -/
theorem orderly_list (h : Orderly R draft i k) {p : Nat} {t : Turn} {b : Bytes} {r : FileHeader} (hp : R.placed (.articleIndex b))
    (ho : Open R i.hold k b (storedArticle R.c r).filename) {k' : Ken} (hk : k' = k p) (hx : TurnOk R (draft p) k' t) :
    Orderly R draft (i.setTurn (i.hold.put (.articleIndex b) (some ((i.hold (.articleIndex b)).getD [] ++ r.marshal R.c))) p t) (setKen k p k') := by
  have ht := turns_set h (m := i.hold.put (.articleIndex b) (some ((i.hold (.articleIndex b)).getD [] ++ r.marshal R.c))) hx
  subst hk
  rw [setKen_same] at ht ⊢
  have hm' : ∀ b' f, i.hold.put (.articleIndex b) (some ((i.hold (.articleIndex b)).getD [] ++ r.marshal R.c)) (.article b' f) =
      i.hold (.article b' f) := fun b' f => put_other' _ _ (by intro e; cases e)
  have hO : ∀ b' f, Open R i.hold k b' f →
      Open R (i.hold.put (.articleIndex b) (some ((i.hold (.articleIndex b)).getD [] ++ r.marshal R.c))) k b' f := by
    intro b' f ⟨⟨h1, h2⟩, h3⟩
    exact ⟨⟨h1, by rw [hm']; exact h2⟩, h3⟩
  have al : 128 ∣ ((i.hold (.articleIndex b)).getD []).length := by
    cases e : i.hold (.articleIndex b) with
    | none => exact ⟨0, rfl⟩
    | some d => exact h.lists b d hp e
  refine ⟨?_, h.met, ?_, ?_, fun q b' f' hq => hO _ _ (h.known q b' f' hq), ?_, h.apart, ?_, ht⟩
  · show ∃ d, i.hold.put (.articleIndex b) (some ((i.hold (.articleIndex b)).getD [] ++ r.marshal R.c)) .boardList = some d ∧ _
    rw [put_other' _ _ (by intro e; cases e)]
    exact h.boards
  · intro b' d h1 h2
    have h2 : i.hold.put (.articleIndex b) (some ((i.hold (.articleIndex b)).getD [] ++ r.marshal R.c)) (.articleIndex b') = some d := h2
    by_cases e : b' = b
    · subst e
      rw [put_self'] at h2
      rw [← Option.some.inj h2, List.length_append, r.marshal_length]
      exact Nat.dvd_add al ⟨1, rfl⟩
    · rw [put_other' _ _ (by intro e'; cases e'; exact e rfl)] at h2
      exact h.lists b' d h1 h2
  · intro b' d h1 h2 x hx
    have h2 : i.hold.put (.articleIndex b) (some ((i.hold (.articleIndex b)).getD [] ++ r.marshal R.c)) (.articleIndex b') = some d := h2
    by_cases e : b' = b
    · subst e
      rw [put_self'] at h2
      rw [← Option.some.inj h2, articlesIn_append R.c al] at hx
      rcases List.mem_append.mp hx with hx | hx
      · cases hd : i.hold (.articleIndex b') with
        | none => rw [hd] at hx; cases hx
        | some d' => rw [hd] at hx; exact hO _ _ (h.listed b' d' h1 hd x hx)
      · rw [List.mem_singleton.mp hx]
        exact hO _ _ ho
    · rw [put_other' _ _ (by intro e'; cases e'; exact e rfl)] at h2
      exact hO _ _ (h.listed b' d h1 h2 x hx)
  · intro q b' f' y hy
    exact ⟨(h.own q b' f' y hy).1, (hm' b' f').trans (h.own q b' f' y hy).2⟩
  · intro b' f' y h1 h2 h3
    exact h.fine b' f' y h1 ((hm' b' f').symm.trans h2) h3

theorem setTurn_twice (i : Atomic) (m m' : Holding) (p : Nat) (x x' : Turn) : (i.setTurn m p x).setTurn m' p x' = i.setTurn m' p x' := by
  unfold Atomic.setTurn
  congr 1
  funext q
  dsimp only
  split <;> rfl

theorem setKen_twice (k : Nat → Ken) (p : Nat) (x x' : Ken) : setKen (setKen k p x) p x' = setKen k p x' := by
  funext q
  unfold setKen
  split <;> rfl

/-- The ideal database carries out a call. -/
theorem orderly_point (h : Orderly R draft i k) (hf : ∀ b f y x, R.fine b f y → R.adds x → R.fine b f (y ++ x)) {p : Nat} {op : Call}
    {next : Res Answer → Script} (hp : i.turn p = .called op next) :
    Orderly R draft (i.setTurn (intended R.c i.hold op).1 p (.decided (intended R.c i.hold op).2 next))
      (setKen k p ((k p).after R.c op (intended R.c i.hold op).2)) := by
  have ht := h.turns p
  rw [hp] at ht
  obtain ⟨ha, hn⟩ := ht
  have hx : TurnOk R (draft p) ((k p).after R.c op (intended R.c i.hold op).2) (.decided (intended R.c i.hold op).2 next) := hn i.hold
  cases op with
  | readUsers => exact orderly_same h rfl rfl hx
  | readFavourites u => exact orderly_same h rfl rfl hx
  | readBoards =>
    obtain ⟨d, hd, _, hpl⟩ := h.boards
    have e : intended R.c i.hold .readBoards = (i.hold, .ok (.boards (boardsIn R.c d))) := by
      simp only [intended, Holding.need, hd]
      rfl
    rw [e] at hx ⊢
    refine orderly_meet h ?_ hx
    rintro b ⟨r, hr, rfl⟩
    exact hpl r hr
  | listTreasure b ds => exact orderly_same h rfl rfl hx
  | readArticle b f => exact orderly_same h rfl rfl hx
  | readTreasure b ds f => exact orderly_same h rfl rfl hx
  | readDraft u d => exact orderly_same h rfl rfl hx
  | listArticles b =>
    refine orderly_learn h ?_ hx
    rintro f ⟨r, hr, rfl⟩
    cases hd : i.hold (.articleIndex b) with
    | none => rw [hd] at hr; cases hr
    | some d => rw [hd] at hr; exact h.listed b d (ha.elim id (h.met p b)) hd r hr
  | addBoard r =>
    obtain ⟨d, hd, hdl, hpl⟩ := h.boards
    have e : (intended R.c i.hold (.addBoard r)).1 = i.hold.put .boardList (some (d ++ r.marshal R.c)) := by
      simp only [intended, hd, Option.getD_some]
    rw [e]
    refine orderly_other h ⟨d ++ r.marshal R.c, put_self' _ _ _, ?_, ?_⟩ (fun b => put_other' _ _ (by intro e; cases e))
      (fun b f => put_other' _ _ (by intro e; cases e)) rfl hx
    · rw [List.length_append, r.marshal_length]
      exact Nat.dvd_add hdl ⟨1, rfl⟩
    · rw [boardsIn_append R.c hdl]
      intro x hx
      rcases List.mem_append.mp hx with hx | hx
      · exact hpl x hx
      · rw [List.mem_singleton.mp hx]; exact ha.2
  | deleteDraft u d =>
    cases hd : i.hold (.draft u d) with
    | none =>
      refine orderly_same h ?_ ?_ hx
      · simp only [intended, hd]
      · rfl
    | some z =>
      have e : (intended R.c i.hold (.deleteDraft u d)).1 = i.hold.put (.draft u d) none := by simp only [intended, hd]
      rw [e]
      refine orderly_other h ?_ (fun b => put_other' _ _ (by intro e; cases e)) (fun b f => put_other' _ _ (by intro e; cases e)) rfl hx
      rw [put_other' _ _ (by intro e; cases e)]
      exact h.boards
  | writeDraft u d z =>
    have e : (intended R.c i.hold (.writeDraft u d z)).1 = i.hold.put (.draft u d) (some z) := rfl
    rw [e]
    refine orderly_other h ?_ (fun b => put_other' _ _ (by intro e; cases e)) (fun b f => put_other' _ _ (by intro e; cases e)) rfl hx
    rw [put_other' _ _ (by intro e; cases e)]
    exact h.boards
  | createArticle b o d t draw fuel =>
    cases hn : freeName i.hold b draw fuel 0 with
    | none =>
      have e : intended R.c i.hold (.createArticle b o d t draw fuel) = (i.hold, .diverge) := by simp only [intended, hn]
      rw [e] at hx ⊢
      exact orderly_same h rfl rfl hx
    | some name =>
      have e : intended R.c i.hold (.createArticle b o d t draw fuel) =
          (i.hold.put (.article b name) (some []), .ok (.record (DB.newArticleRecord name o d t))) := by simp only [intended, hn]
      rw [e] at hx ⊢
      obtain ⟨j, hj, hfree⟩ := free_drawn hn
      exact orderly_own h (ha _ ⟨j, by rw [hj]⟩) (Or.inr ⟨hfree, _, _, hj⟩) hx
  | writeArticle b f z =>
    obtain ⟨y, hy⟩ := Option.ne_none_iff_exists'.mp ha
    obtain ⟨h1, h2⟩ := h.own p b f y hy
    have e : intended R.c i.hold (.writeArticle b f z) = (i.hold.put (.article b f) (some (z ++ y.drop z.length)), .ok .done) := by
      simp only [intended, h2, Option.getD_some]
    have e2 : (k p).after R.c (.writeArticle b f z) (.ok .done) = (k p).keep b f (some (z ++ y.drop z.length)) := by
      simp only [Ken.after, hy, Option.map_some]
    rw [e] at hx ⊢
    rw [e2] at hx ⊢
    exact orderly_own h h1 (Or.inl ha) hx
  | appendArticle b f z =>
    have hk := h.known p b f ha.1
    cases hy : i.hold (.article b f) with
    | none =>
      have e : intended R.c i.hold (.appendArticle b f z) = (i.hold, .err "no such file or directory") := by simp only [intended, hy]
      rw [e] at hx ⊢
      exact orderly_same h rfl rfl hx
    | some y =>
      have e : intended R.c i.hold (.appendArticle b f z) = (i.hold.put (.article b f) (some (y ++ z)), .ok .done) := by
        simp only [intended, hy]
      rw [e] at hx ⊢
      exact orderly_open h hf hk ha.2 hy rfl hx
  | addRecord b r =>
    obtain ⟨hpl, ha⟩ := ha
    have hset : Settled R i.hold b (storedArticle R.c r).filename := by
      rcases ha with ha | ⟨y, hy, _⟩
      · exact (h.known p _ _ ha).1
      · obtain ⟨h1, h2⟩ := h.own p _ _ y hy
        exact ⟨h1, Or.inl (by rw [h2]; simp)⟩
    have hall : ∀ q, q ≠ p → (k q).own b (storedArticle R.c r).filename = none := by
      intro q hq
      rcases ha with ha | ⟨y, hy, _⟩
      · exact (h.known p _ _ ha).2 q
      · exact h.apart p q _ _ (fun e => hq e.symm) (by rw [hy]; simp)
    have hfine : ∀ y, (k p).own b (storedArticle R.c r).filename = some y → R.fine b (storedArticle R.c r).filename y := by
      intro y hy
      rcases ha with ha | ⟨y', hy', hf'⟩
      · rw [(h.known p _ _ ha).2 p] at hy; cases hy
      · rw [hy'] at hy; cases hy; exact hf'
    -- first the article stops being private, then it is learned, then it is put into the list; only what comes last is a turn
    have t0 : TurnOk R (draft p) ((k p).keep b (storedArticle R.c r).filename none) (.idle .stop) := trivial
    have s1 := orderly_publish h hfine t0
    have o1 : Open R i.hold (setKen k p ((k p).keep b (storedArticle R.c r).filename none)) b (storedArticle R.c r).filename := by
      refine ⟨hset, ?_⟩
      intro q
      by_cases e : q = p
      · subst e; rw [setKen_self, keep_own, if_pos ⟨rfl, rfl⟩]
      · rw [setKen_other _ _ e]; exact hall q e
    have s2 := orderly_learn s1 (p := p) (b := b) (names := (· = (storedArticle R.c r).filename)) (by rintro f rfl; exact o1) (t := .idle .stop)
      (show TurnOk R (draft p) _ (.idle .stop) from trivial)
    rw [setTurn_twice, setKen_self, setKen_twice] at s2
    have o2 : Open R i.hold (setKen k p (((k p).keep b (storedArticle R.c r).filename none).learn b (· = (storedArticle R.c r).filename))) b
        (storedArticle R.c r).filename := by
      refine ⟨hset, ?_⟩
      intro q
      by_cases e : q = p
      · subst e; rw [setKen_self]; exact if_pos ⟨rfl, rfl⟩
      · rw [setKen_other _ _ e]; exact hall q e
    have s3 := orderly_list s2 (p := p) (t := .decided (.ok .done) next) hpl o2 rfl
      (by rw [setKen_self]; exact hx)
    rw [setTurn_twice, setKen_self, setKen_twice] at s3
    exact s3

/-- One move of the ideal database. -/
theorem orderly_move (h : Orderly R draft i k) (hf : ∀ b f y x, R.fine b f y → R.adds x → R.fine b f (y ++ x)) {x : Mark} {i' : Atomic}
    (hm : Atomic.Move R.c i x i') : ∃ k', Orderly R draft i' k' := by
  cases hm with
  | @call p op next hp =>
    have ht := h.turns p
    rw [hp] at ht
    exact ⟨_, orderly_same h rfl rfl ht⟩
  | @point p op next hp => exact ⟨_, orderly_point h hf hp⟩
  | @ret p r next hp =>
    have ht := h.turns p
    rw [hp] at ht
    exact ⟨_, orderly_same h rfl rfl ht⟩

theorem orderly_run (hf : ∀ b f y x, R.fine b f y → R.adds x → R.fine b f (y ++ x)) {marks : List Mark} {i i' : Atomic} (hr : Atomic.Run R.c i marks i') :
    ∀ k, Orderly R draft i k → ∃ k', Orderly R draft i' k' := by
  induction hr with
  | nil => exact fun k h => ⟨k, h⟩
  | cons hm _ ih =>
    intro k h
    obtain ⟨k', h'⟩ := orderly_move h hf hm
    exact ih k' h'

end

theorem orderly_start {R : Rules} {draft : Nat → Bytes → Bytes → Prop} {m : Holding} {script : Nat → Script} (hT : Tidy R m)
    (hfine : ∀ b f y, R.placed (.article b f) → m (.article b f) = some y → R.fine b f y)
    (hd : ∀ p, Decent R (draft p) (script p) Ken.blank) : Orderly R draft (Atomic.start m script) (fun _ => Ken.blank) where
  boards := hT.boards
  met := fun _ _ h => h.elim
  lists := hT.lists
  listed := fun b d h1 h2 r hr => ⟨hT.listed b d h1 h2 r hr, fun _ => rfl⟩
  known := fun _ _ _ h => h.elim
  own := fun _ _ _ _ h => by cases h
  apart := fun _ _ _ _ _ h => absurd rfl h
  fine := fun b f y h1 h2 _ => hfine b f y h1 h2
  turns := hd

/-- Clients that keep to the rules do not race. -/
theorem orderly_calm {R : Rules} {draft : Nat → Bytes → Bytes → Prop} {i : Atomic} {k : Nat → Ken} (h : Orderly R draft i k)
    (hd : ∀ p q u d, p ≠ q → draft p u d → ¬ draft q u d) {p q : Nat} {op op' : Call} {next next' : Res Answer → Script} (hpq : p ≠ q)
    (hp : i.turn p = .called op next) (hq : i.turn q = .called op' next') : Undisturbed i.hold op op' := by
  have hp' := h.turns p
  have hq' := h.turns q
  rw [hp] at hp'
  rw [hq] at hq'
  have ha := hp'.1
  have hb := hq'.1
  clear hp' hq' hp hq
  intro o ho ho'
  have article : ∀ b f, o = .article b f → ¬ Overwrites op → (Shared o (i.hold o) ∧ ¬ Overwrites op) ∨ (Blind op' ∧ i.hold o ≠ none) := by
    rintro b f rfl hw
    exact Or.inl ⟨trivial, hw⟩
  have drafts : ∀ u d, o = .draft u d → draft p u d → False := by
    rintro u d rfl hm
    cases op' with
    | readDraft u' d' => cases ho'; exact hd p q _ _ hpq hm hb.2
    | deleteDraft u' d' => cases ho'; exact hd p q _ _ hpq hm hb.2
    | writeDraft u' d' x => cases ho'; exact hd p q _ _ hpq hm hb.2
    | readFavourites u' => rcases ho' with e | e <;> cases e
    | createArticle => obtain ⟨_, e⟩ := ho'; cases e
    | _ => cases ho'
  cases op with
  | addBoard r =>
    obtain ⟨d, hd, hdl, _⟩ := h.boards
    rw [show o = _ from ho]
    refine Or.inl ⟨?_, id⟩
    rw [hd]; exact hdl
  | createArticle => obtain ⟨_, e⟩ := ho; exact article _ _ e id
  | appendArticle b f x => exact article _ _ ho id
  | addRecord b r =>
    rw [show o = _ from ho]
    refine Or.inl ⟨?_, id⟩
    cases hd : i.hold (.articleIndex b) with
    | none => trivial
    | some d => exact h.lists b d ha.1 hd
  | deleteDraft u d => exact (drafts u d ho ha.2).elim
  | writeDraft u d x => exact (drafts u d ho ha.2).elim
  | writeArticle b f x =>
    have ho : o = .article b f := ho
    subst ho
    have hnone : (k q).own b f = none := h.apart p q b f hpq ha
    have hunk : ¬ (k q).known b f := fun e => ha ((h.known q b f e).2 p)
    cases op' with
    | createArticle =>
      obtain ⟨y, hy⟩ := Option.ne_none_iff_exists'.mp ha
      exact Or.inr ⟨trivial, by rw [(h.own p b f y hy).2]; simp⟩
    | writeArticle b' f' x' => cases ho'; exact absurd hnone hb
    | appendArticle b' f' x' =>
      cases ho'
      exact absurd hb.1 hunk
    | readArticle b' f' => cases ho'; exact absurd hb hunk
    | readFavourites u' => rcases ho' with e | e <;> cases e
    | _ => cases ho'
  | _ => cases ho

theorem orderly_placed {R : Rules} {draft : Nat → Bytes → Bytes → Prop} {i : Atomic} {k : Nat → Ken} (h : Orderly R draft i k)
    {p : Nat} {op : Call} {next : Res Answer → Script} (hp : i.turn p = .called op next) : ∀ o, touches op o → R.placed o := by
  have ha := h.turns p
  rw [hp] at ha
  have ha := ha.1
  intro o ho
  cases op with
  | readArticle b f => rw [show o = _ from ho]; exact (h.known p b f ha).1.1
  | writeArticle b f x =>
    rw [show o = _ from ho]
    obtain ⟨y, hy⟩ := Option.ne_none_iff_exists'.mp ha
    exact (h.own p b f y hy).1
  | appendArticle b f x => rw [show o = _ from ho]; exact (h.known p b f ha.1).1.1
  | addRecord b r => rw [show o = _ from ho]; exact ha.1
  | readDraft u d => rw [show o = _ from ho]; exact ha.1
  | deleteDraft u d => rw [show o = _ from ho]; exact ha.1
  | writeDraft u d x => rw [show o = _ from ho]; exact ha.1
  | readUsers => exact ha o ho
  | readFavourites u => exact ha o ho
  | readBoards => exact ha o ho
  | listArticles b => rw [show o = _ from ho]; exact ha.elim id (h.met p b)
  | listTreasure b ds => exact ha o ho
  | readTreasure b ds f => exact ha o ho
  | addBoard r => rw [show o = _ from ho]; exact ha.1
  | createArticle b o' d t draw fuel => exact ha o ho

end Verif
