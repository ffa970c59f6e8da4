import Verif.Go.Utf8
/-!
# Regular expressions (`regexp`, leftmost-first semantics)

The package documents that the match chosen is the one a backtracking engine would find first. `Rx.run` lists every way
an expression matches at the start of the input, in the order such an engine tries them; each way is given by what is
left of the input and the captured groups. The first element is Go's match. Operators used by the code: rune classes,
concatenation, alternation, greedy `*`, greedy `?`, capture groups. Simplification: an iteration of `*` that consumes
nothing is not tried (no starred expression of the code matches the empty string).
-/

namespace Verif

/-- Regular expressions. -/
inductive Rx where
  | eps
  | cls (p : Nat → Bool)
  | seq (a b : Rx)
  | alt (a b : Rx)
  | star (a : Rx)
  | cap (i : Nat) (a : Rx)

namespace Rx

/-- Greedy `a?`. -/
def opt (a : Rx) : Rx := alt a eps

/-- Greedy `a+`. -/
def plus (a : Rx) : Rx := seq a (star a)

/-- Greedy `a{0,n}`. -/
def upTo (a : Rx) : Nat → Rx
  | 0 => eps
  | n + 1 => opt (seq a (upTo a n))

/-- Sequence of several. -/
def cat : List Rx → Rx
  | [] => eps
  | [a] => a
  | a :: as => seq a (cat as)

/-- A literal ASCII character. -/
def chr (c : Nat) : Rx := cls (· == c)

/-- State of the matcher: what is left, and the groups captured so far (newest first). -/
structure St where
  rest : List Rune
  caps : List (Nat × List Rune)

/-- Iterate a greedy star. -/
def starRun (f : St → List St) : Nat → St → List St
  | 0, s => [s]
  | n + 1, s => ((f s).filter (fun t => t.rest.length < s.rest.length)).flatMap (starRun f n) ++ [s]

/-- All matches at the start of the input, in the order of preference. -/
def run : Rx → St → List St
  | eps, s => [s]
  | cls p, s =>
    match s.rest with
    | [] => []
    | r :: rs => if p r.val then [{ s with rest := rs }] else []
  | seq a b, s => (run a s).flatMap (run b)
  | alt a b, s => run a s ++ run b s
  | star a, s => starRun (run a) s.rest.length s
  | cap i a, s =>
    (run a s).map fun t => { t with caps := (i, s.rest.take (s.rest.length - t.rest.length)) :: t.caps }

/-- The preferred match at the start of the input. -/
def first (r : Rx) (s : List Rune) : Option St := (r.run ⟨s, []⟩).head?

/-- The leftmost match: the text before it, the whole input from its start, and the end state. -/
def find (r : Rx) : List Rune → Option (List Rune × St)
  | [] => (r.first []).map fun t => ([], t)
  | c :: cs =>
    match r.first (c :: cs) with
    | some t => some (c :: cs, t)
    | none => find r cs

/-- `ReplaceAllString(src, "")`: delete all matches from left to right. An empty match deletes nothing. `fuel` bounds
the length. -/
def deleteAux (r : Rx) : Nat → List Rune → List Rune
  | 0, _ => []
  | _, [] => []
  | fuel + 1, c :: cs =>
    match r.first (c :: cs) with
    | some t => if t.rest.length < (c :: cs).length then deleteAux r fuel t.rest else c :: deleteAux r fuel cs
    | none => c :: deleteAux r fuel cs

/-- `ReplaceAllString(src, "")`. -/
def delete (r : Rx) (s : List Rune) : List Rune := deleteAux r s.length s

/-- Group `i` of a match that started at `start` (`FindStringSubmatch`; group 0 is the whole match, a group that took
no part is empty). -/
def group (start : List Rune) (t : St) (i : Nat) : List Rune :=
  if i = 0 then start.take (start.length - t.rest.length) else ((t.caps.find? (·.1 == i)).map (·.2)).getD []

/-! ## Lemmas -/

theorem starRun_suffix {f : St → List St} (hf : ∀ s t, t ∈ f s → t.rest <:+ s.rest) (n : Nat) :
    ∀ s t, t ∈ starRun f n s → t.rest <:+ s.rest := by
  induction n with
  | zero => intro s t h; simp [starRun] at h; subst h; exact List.suffix_rfl
  | succ n ih =>
    intro s t h
    simp only [starRun, List.mem_append, List.mem_flatMap, List.mem_filter, List.mem_singleton] at h
    rcases h with ⟨u, ⟨h1, _⟩, h2⟩ | h
    · exact (ih u t h2).trans (hf s u h1)
    · subst h; exact List.suffix_rfl

/-- A match leaves a suffix of the input. -/
theorem run_suffix (r : Rx) : ∀ s t, t ∈ r.run s → t.rest <:+ s.rest := by
  induction r with
  | eps => intro s t h; simp [run] at h; subst h; exact List.suffix_rfl
  | cls p =>
    intro s t h
    simp only [run] at h
    split at h
    · simp at h
    · rename_i r rs he
      split at h
      · simp at h; subst h; rw [he]; exact List.suffix_cons _ _
      · simp at h
  | seq a b iha ihb =>
    intro s t h
    simp only [run, List.mem_flatMap] at h
    obtain ⟨u, h1, h2⟩ := h
    exact (ihb u t h2).trans (iha s u h1)
  | alt a b iha ihb =>
    intro s t h
    simp only [run, List.mem_append] at h
    rcases h with h | h
    · exact iha s t h
    · exact ihb s t h
  | star a ih => intro s t h; exact starRun_suffix ih _ s t h
  | cap i a ih =>
    intro s t h
    simp only [run, List.mem_map] at h
    obtain ⟨u, h1, h2⟩ := h
    subst h2
    exact ih s u h1

theorem first_suffix {r : Rx} {s : List Rune} {t : St} (h : r.first s = some t) : t.rest <:+ s :=
  run_suffix r _ _ (List.mem_of_head? h)

theorem deleteAux_fuel (r : Rx) : ∀ (g f : Nat) (s : List Rune), s.length ≤ f → s.length ≤ g →
    deleteAux r f s = deleteAux r g s := by
  intro g
  induction g with
  | zero =>
    intro f s _ h2
    have : s = [] := List.length_eq_zero_iff.mp (by omega)
    subst this
    cases f <;> rfl
  | succ g ih =>
    intro f s h1 h2
    cases s with
    | nil => cases f <;> rfl
    | cons c cs =>
      cases f with
      | zero => simp at h1
      | succ f =>
        simp only [List.length_cons] at h1 h2
        simp only [deleteAux]
        split
        · rename_i t ht
          split
          · rename_i hl
            simp only [List.length_cons] at hl
            exact ih _ _ (by omega) (by omega)
          · rw [ih f cs (by omega) (by omega)]
        · rw [ih f cs (by omega) (by omega)]

theorem delete_nil (r : Rx) : r.delete [] = [] := rfl

/-- One step of the deletion. -/
theorem delete_cons (r : Rx) (c : Rune) (cs : List Rune) : r.delete (c :: cs) =
    match r.first (c :: cs) with
    | some t => if t.rest.length < (c :: cs).length then r.delete t.rest else c :: r.delete cs
    | none => c :: r.delete cs := by
  unfold delete
  simp only [List.length_cons, deleteAux]
  split
  · rename_i t ht
    split
    · rename_i hl
      exact deleteAux_fuel r _ _ _ (by omega) (by omega)
    · rfl
  · rfl

/-- Deletion keeps a subsequence. -/
theorem delete_sublist (r : Rx) (s : List Rune) : (r.delete s).Sublist s := by
  induction h : s.length using Nat.strongRecOn generalizing s with
  | _ n ih =>
    cases s with
    | nil => exact List.Sublist.refl _
    | cons c cs =>
      subst h
      rw [delete_cons]
      split
      · rename_i t ht
        split
        · rename_i hl
          exact (ih _ hl _ rfl).trans (first_suffix ht).sublist
        · exact (ih _ (by simp) _ rfl).cons_cons c
      · exact (ih _ (by simp) _ rfl).cons_cons c

/-- If nothing matches at any position of the first part, it is kept. -/
theorem delete_append_of_no_match {r : Rx} {pre post : List Rune}
    (h : ∀ a b, pre = a ++ b → b ≠ [] → r.first (b ++ post) = none) : r.delete (pre ++ post) = pre ++ r.delete post := by
  induction pre with
  | nil => rfl
  | cons c cs ih =>
    have h1 := h [] (c :: cs) rfl (by simp)
    rw [List.cons_append] at h1
    rw [List.cons_append, delete_cons, h1, ih ?_]
    · rfl
    · intro a b e hb
      exact h (c :: a) b (by rw [e]; rfl) hb

theorem find_append_of_no_match {r : Rx} {pre post : List Rune}
    (h : ∀ a b, pre = a ++ b → b ≠ [] → r.first (b ++ post) = none) : r.find (pre ++ post) = r.find post := by
  induction pre with
  | nil => rfl
  | cons c cs ih =>
    have h1 := h [] (c :: cs) rfl (by simp)
    rw [List.cons_append] at h1
    rw [List.cons_append, find, h1]
    exact ih (fun a b e hb => h (c :: a) b (by rw [e]; rfl) hb)

/-- Head of a `flatMap` whose first branch succeeds. -/
theorem head_flatMap {α β : Type} {l : List α} {f : α → List β} {a : α} {b : β} (h : l.head? = some a)
    (h2 : (f a).head? = some b) : (l.flatMap f).head? = some b := by
  cases l with
  | nil => simp at h
  | cons x l =>
    simp at h
    subst h
    rw [List.flatMap_cons]
    cases hx : f x with
    | nil => simp [hx] at h2
    | cons y ys => simpa [hx] using h2

/-- Head of a concatenation. -/
theorem head_append {α : Type} {l m : List α} {a : α} (h : l.head? = some a) : (l ++ m).head? = some a := by
  cases l with
  | nil => simp at h
  | cons x l => simpa using h

theorem run_cls_cons (p : Nat → Bool) (r : Rune) (rs : List Rune) (caps : List (Nat × List Rune)) :
    (cls p).run ⟨r :: rs, caps⟩ = if p r.val then [⟨rs, caps⟩] else [] := rfl

/-- The states after consuming a whole run, then one rune less, and so on. -/
def drops (x rest : List Rune) (caps : List (Nat × List Rune)) : List St :=
  match x with
  | [] => [⟨rest, caps⟩]
  | r :: rs => drops rs rest caps ++ [⟨r :: rs ++ rest, caps⟩]

theorem starRun_cls (p : Nat → Bool) (n : Nat) (x rest : List Rune) (caps : List (Nat × List Rune))
    (hx : ∀ r ∈ x, p r.val = true) (hr : ∀ r ∈ rest.head?, p r.val = false) (hn : (x ++ rest).length ≤ n) :
    starRun (run (cls p)) n ⟨x ++ rest, caps⟩ = drops x rest caps := by
  induction x generalizing n with
  | nil =>
    cases n with
    | zero => rfl
    | succ n =>
      cases rest with
      | nil => rfl
      | cons r rs =>
        have := hr r (by simp)
        simp [starRun, run, this, drops]
  | cons r rs ih =>
    cases n with
    | zero => simp at hn
    | succ n =>
      have h1 := hx r (by simp)
      simp only [starRun, List.cons_append, run_cls_cons, h1, if_true, List.length_cons]
      have e : List.filter (fun t : St => decide (t.rest.length < (rs ++ rest).length + 1)) [⟨rs ++ rest, caps⟩] =
          [⟨rs ++ rest, caps⟩] := by simp
      rw [e, List.flatMap_cons, List.flatMap_nil, List.append_nil,
        ih n (fun a ha => hx a (by simp [ha])) (by simp at hn ⊢; omega)]
      rfl

/-- A greedy star of a class followed by something outside the class. -/
theorem run_star_cls (p : Nat → Bool) (x rest : List Rune) (caps : List (Nat × List Rune))
    (hx : ∀ r ∈ x, p r.val = true) (hr : ∀ r ∈ rest.head?, p r.val = false) :
    (star (cls p)).run ⟨x ++ rest, caps⟩ = drops x rest caps := by
  simp only [run]
  exact starRun_cls p _ x rest caps hx hr (Nat.le_refl _)

theorem drops_head (x rest : List Rune) (caps : List (Nat × List Rune)) : (drops x rest caps).head? = some ⟨rest, caps⟩ := by
  induction x with
  | nil => rfl
  | cons r rs ih => exact head_append ih

theorem mem_drops {x rest : List Rune} {caps : List (Nat × List Rune)} {t : St} :
    t ∈ drops x rest caps ↔ ∃ a b, x = a ++ b ∧ t = ⟨b ++ rest, caps⟩ := by
  induction x with
  | nil =>
    simp only [drops, List.mem_singleton]
    constructor
    · intro h; exact ⟨[], [], rfl, h⟩
    · rintro ⟨a, b, h, e⟩
      have := List.append_eq_nil_iff.mp h.symm
      rw [e, this.2]; rfl
  | cons r rs ih =>
    simp only [drops, List.mem_append, List.mem_singleton, ih]
    constructor
    · rintro (⟨a, b, h, e⟩ | h)
      · exact ⟨r :: a, b, by rw [h]; rfl, e⟩
      · exact ⟨[], r :: rs, rfl, h⟩
    · rintro ⟨a, b, h, e⟩
      cases a with
      | nil =>
        right
        rw [e]
        simp only [List.nil_append] at h
        rw [← h]
      | cons a0 a =>
        left
        injection h with _ h
        exact ⟨a, b, h, e⟩

end Rx

end Verif
