import Verif.Go.Regexp
/-!
# More about the matcher: membership and preferred matches
-/

namespace Verif.Rx

theorem starRun_fuel {f : St → List St} : ∀ (g n : Nat) (s : St), s.rest.length ≤ n → s.rest.length ≤ g →
    starRun f n s = starRun f g s := by
  intro g
  induction g with
  | zero =>
    intro n s _ h2
    cases n with
    | zero => rfl
    | succ n =>
      have : List.filter (fun t : St => decide (t.rest.length < s.rest.length)) (f s) = [] := by
        rw [List.filter_eq_nil_iff]
        intro t _
        simp; omega
      simp [starRun, this]
  | succ g ih =>
    intro n s h1 h2
    cases n with
    | zero =>
      have : List.filter (fun t : St => decide (t.rest.length < s.rest.length)) (f s) = [] := by
        rw [List.filter_eq_nil_iff]
        intro t _
        simp; omega
      simp [starRun, this]
    | succ n =>
      simp only [starRun]
      congr 1
      have key : ∀ t ∈ List.filter (fun t : St => decide (t.rest.length < s.rest.length)) (f s),
          starRun f n t = starRun f g t := by
        intro t ht
        have := of_decide_eq_true (List.mem_filter.mp ht).2
        exact ih n t (by omega) (by omega)
      revert key
      generalize List.filter (fun t : St => decide (t.rest.length < s.rest.length)) (f s) = l
      intro key
      induction l with
      | nil => rfl
      | cons x l ih2 =>
        rw [List.flatMap_cons, List.flatMap_cons, key x (by simp), ih2 (fun t ht => key t (by simp [ht]))]

/-- Unfolding of a star. -/
theorem run_star (a : Rx) (s : St) : (star a).run s =
    ((a.run s).filter (fun t => t.rest.length < s.rest.length)).flatMap (star a).run ++ [s] := by
  have e : (star a).run s = starRun a.run (s.rest.length + 1) s := by
    simp only [run]
    exact starRun_fuel _ _ _ (by omega) (by omega)
  rw [e]
  simp only [starRun]
  congr 1
  have key : ∀ t ∈ List.filter (fun t : St => decide (t.rest.length < s.rest.length)) (a.run s),
      starRun a.run s.rest.length t = (star a).run t := by
    intro t ht
    have := of_decide_eq_true (List.mem_filter.mp ht).2
    simp only [run]
    exact starRun_fuel _ _ _ (by omega) (by omega)
  revert key
  generalize List.filter (fun t : St => decide (t.rest.length < s.rest.length)) (a.run s) = l
  intro key
  induction l with
  | nil => rfl
  | cons x l ih2 =>
    rw [List.flatMap_cons, List.flatMap_cons, key x (by simp), ih2 (fun t ht => key t (by simp [ht]))]

theorem star_self (a : Rx) (s : St) : s ∈ (star a).run s := by
  rw [run_star]; simp

theorem star_step {a : Rx} {s t u : St} (h : t ∈ a.run s) (hl : t.rest.length < s.rest.length)
    (h2 : u ∈ (star a).run t) : u ∈ (star a).run s := by
  rw [run_star, List.mem_append, List.mem_flatMap]
  exact Or.inl ⟨t, List.mem_filter.mpr ⟨h, decide_eq_true hl⟩, h2⟩

/-- Induction over the iterations of a star. -/
theorem star_induction {a : Rx} {P : St → St → Prop} (h0 : ∀ s, P s s)
    (h1 : ∀ s t u, t ∈ a.run s → t.rest.length < s.rest.length → P t u → P s u) :
    ∀ s u, u ∈ (star a).run s → P s u := by
  intro s
  induction hn : s.rest.length using Nat.strongRecOn generalizing s with
  | _ n ih =>
    intro u hu
    rw [run_star, List.mem_append, List.mem_flatMap] at hu
    rcases hu with ⟨t, h2, h3⟩ | hu
    · have h4 := List.mem_filter.mp h2
      have hl := of_decide_eq_true h4.2
      exact h1 s t u h4.1 hl (ih _ (by subst hn; exact hl) t rfl u h3)
    · simp at hu; subst hu; exact h0 _

/-- Preferred match of a star: go on while the body matches. -/
theorem star_head_step {a : Rx} {s t u : St} (h : (a.run s).head? = some t) (hl : t.rest.length < s.rest.length)
    (h2 : ((star a).run t).head? = some u) : ((star a).run s).head? = some u := by
  rw [run_star]
  apply head_append
  refine head_flatMap (a := t) ?_ h2
  cases hr : a.run s with
  | nil => simp [hr] at h
  | cons x l =>
    simp [hr] at h
    subst h
    simp [hl]

theorem star_head_stop {a : Rx} {s : St} (h : a.run s = []) : ((star a).run s).head? = some s := by
  rw [run_star, h]; rfl

theorem seq_head {a b : Rx} {s t u : St} (h : (a.run s).head? = some t) (h2 : (b.run t).head? = some u) :
    ((seq a b).run s).head? = some u := head_flatMap h h2

theorem alt_head_left {a b : Rx} {s t : St} (h : (a.run s).head? = some t) : ((alt a b).run s).head? = some t :=
  head_append h

theorem alt_head_right {a b : Rx} {s t : St} (h : a.run s = []) (h2 : (b.run s).head? = some t) :
    ((alt a b).run s).head? = some t := by
  simp only [run, h]; exact h2

theorem cls_head {p : Nat → Bool} {r : Rune} {rs : List Rune} {caps : List (Nat × List Rune)} (h : p r.val = true) :
    ((cls p).run ⟨r :: rs, caps⟩).head? = some ⟨rs, caps⟩ := by
  rw [run_cls_cons, if_pos h]; rfl

theorem cls_fail {p : Nat → Bool} {s : List Rune} {caps : List (Nat × List Rune)}
    (h : ∀ r ∈ s.head?, p r.val = false) : (cls p).run ⟨s, caps⟩ = [] := by
  cases s with
  | nil => rfl
  | cons r rs =>
    rw [run_cls_cons, h r (by simp)]
    rfl

theorem seq_fail {a b : Rx} {s : St} (h : a.run s = []) : (seq a b).run s = [] := by
  simp [run, h]

/-- A class matches one rune. -/
theorem mem_cls {p : Nat → Bool} {s t : St} (h : t ∈ (cls p).run s) :
    ∃ r, p r.val = true ∧ s.rest = r :: t.rest ∧ t.caps = s.caps := by
  obtain ⟨rest, caps⟩ := s
  cases rest with
  | nil => simp [run] at h
  | cons r rs =>
    rw [run_cls_cons] at h
    split at h
    · rename_i hp
      simp at h
      subst h
      exact ⟨r, hp, rfl, rfl⟩
    · simp at h

theorem mem_seq {a b : Rx} {s u : St} : u ∈ (seq a b).run s ↔ ∃ t, t ∈ a.run s ∧ u ∈ b.run t := by
  simp [run]

theorem mem_alt {a b : Rx} {s u : St} : u ∈ (alt a b).run s ↔ u ∈ a.run s ∨ u ∈ b.run s := by
  simp [run]

/-- A star of a class consumes runes of the class. -/
theorem mem_star_cls {p : Nat → Bool} {s t : St} (h : t ∈ (star (cls p)).run s) :
    ∃ x, s.rest = x ++ t.rest ∧ (∀ r ∈ x, p r.val = true) ∧ t.caps = s.caps := by
  refine star_induction (P := fun s t => ∃ x, s.rest = x ++ t.rest ∧ (∀ r ∈ x, p r.val = true) ∧ t.caps = s.caps)
    (fun s => ⟨[], rfl, by simp, rfl⟩) ?_ s t h
  rintro s t u h1 _ ⟨x, h2, h3, h4⟩
  obtain ⟨r, hp, he, hc⟩ := mem_cls h1
  refine ⟨r :: x, by rw [he, h2]; rfl, ?_, by rw [h4, hc]⟩
  intro q hq
  rcases List.mem_cons.mp hq with h | h
  · rw [h]; exact hp
  · exact h3 q h

theorem star_cls_mem {p : Nat → Bool} (x rest : List Rune) (caps : List (Nat × List Rune))
    (hx : ∀ r ∈ x, p r.val = true) : (⟨rest, caps⟩ : St) ∈ (star (cls p)).run ⟨x ++ rest, caps⟩ := by
  induction x with
  | nil => exact star_self _ _
  | cons r x ih =>
    refine star_step (t := ⟨x ++ rest, caps⟩) ?_ ?_ (ih (fun q hq => hx q (by simp [hq])))
    · rw [List.cons_append, run_cls_cons, if_pos (hx r (by simp))]
      simp
    · simp

/-- Preferred match of a star of a class. -/
theorem star_cls_head {p : Nat → Bool} (x rest : List Rune) (caps : List (Nat × List Rune))
    (hx : ∀ r ∈ x, p r.val = true) (hr : ∀ r ∈ rest.head?, p r.val = false) :
    ((star (cls p)).run ⟨x ++ rest, caps⟩).head? = some ⟨rest, caps⟩ := by
  rw [run_star_cls p x rest caps hx hr]
  exact drops_head _ _ _

/-- Preferred match of `a{0,n}` of a class, when the run is not longer. -/
theorem upTo_cls_head {p : Nat → Bool} (n : Nat) (x rest : List Rune) (caps : List (Nat × List Rune))
    (hx : ∀ r ∈ x, p r.val = true) (hl : x.length ≤ n) (hr : ∀ r ∈ rest.head?, p r.val = false) :
    ((upTo (cls p) n).run ⟨x ++ rest, caps⟩).head? = some ⟨rest, caps⟩ := by
  induction n generalizing x with
  | zero =>
    have : x = [] := List.length_eq_zero_iff.mp (by omega)
    subst this
    rfl
  | succ n ih =>
    unfold upTo opt
    cases x with
    | nil =>
      apply alt_head_right
      · exact seq_fail (cls_fail hr)
      · rfl
    | cons r x =>
      apply alt_head_left
      refine seq_head (t := ⟨x ++ rest, caps⟩) (cls_head (hx r (by simp))) ?_
      exact ih x (fun q hq => hx q (by simp [hq])) (by simp at hl; omega)

end Verif.Rx
