import Verif.Props.ArticleRecord
import Verif.Props.Articles
import Verif.Props.Paths
import Verif.Props.Lists
import Verif.Props.Handles
/-!
# Where claims that are false fail, exactly (C22, C26, C29, C35, C109)
-/

namespace Verif

open Spec

/-! ## C22 -/

/-- **C22 (exact).** What the caller sees through a slice `t` stays as it was, exactly if the slice passed has no room left, or `t` does not show
the cell behind it, or that cell was empty. -/
theorem C22_exact (h : Heap) (home board : Bytes) (s t : SliceHdr) (hs : s.Valid h) (ht : t.Valid h) :
    (treasureDirIn h home board s).1.view t = h.view t ↔
      s.len = s.cap ∨ t.arr ≠ s.arr ∨ t.off + t.len ≤ s.off + s.len ∨ s.off + s.len < t.off ∨
        (h.arrays s.arr)[s.off + s.len]? = some [] := by
  have hlen := hs.2.1
  constructor
  · intro e
    apply Classical.byContradiction
    intro hn
    simp only [not_or] at hn
    obtain ⟨h1, h2, h3, h4, h5⟩ := hn
    have h2 : t.arr = s.arr := Classical.byContradiction h2
    have hc : s.len < s.cap := by omega
    have hcell : s.off + s.len < (h.arrays s.arr).length := by have := hs.2.2; omega
    have e' := congrArg (fun l => l[s.off + s.len - t.off]?) e
    simp only [treasureDirIn, Heap.append, if_pos hc, Heap.view, h2] at e'
    rw [List.getElem?_take_of_lt (by omega), List.getElem?_take_of_lt (by omega), List.getElem?_drop, List.getElem?_drop,
      show t.off + (s.off + s.len - t.off) = s.off + s.len by omega, if_pos trivial, List.getElem?_set_self hcell] at e'
    exact h5 e'.symm
  · intro hd
    rcases hd with hd | hd | hd | hd | hd
    · exact (C22_effect h home board [] s hs).2.2.2.2 t ht (.inl hd)
    · exact (C22_effect h home board [] s hs).2.2.2.2 t ht (.inr (.inl hd))
    · exact (C22_effect h home board [] s hs).2.2.2.2 t ht (.inr (.inr (.inl hd)))
    · exact (C22_effect h home board [] s hs).2.2.2.2 t ht (.inr (.inr (.inr hd)))
    · by_cases hc : s.len < s.cap
      · obtain ⟨hl, hv⟩ := List.getElem?_eq_some_iff.mp hd
        have hset : (h.arrays s.arr).set (s.off + s.len) [] = h.arrays s.arr := by rw [← hv]; exact List.set_getElem_self hl
        simp only [treasureDirIn, Heap.append, if_pos hc, Heap.view]
        by_cases ha : t.arr = s.arr
        · rw [if_pos ha, ha, hset]
        · rw [if_neg ha]
      · exact (C22_effect h home board [] s hs).2.2.2.2 t ht (.inl (by omega))

example : (⟨0, 0, 1, 2⟩ : SliceHdr).Valid ⟨fun _ => [ascii "D1", []], 1⟩ ∧ (⟨0, 0, 2, 2⟩ : SliceHdr).Valid ⟨fun _ => [ascii "D1", []], 1⟩ ∧
    ((fun _ => [ascii "D1", []] : Nat → List Bytes) 0)[1]? = some [] := by decide

/-! ## C26 -/

/-- **C26 (exact).** After writing an article its content is what was written, exactly if the old text was not longer. -/
theorem C26_exact (db : DB) (fs fs' : FS) (board file content : Bytes) (h : db.writeBoardArticleFile fs board file content = .ok fs') :
    db.readBoardArticleFile fs' board file = .ok content ↔
      ∀ old, db.readBoardArticleFile fs board file = .ok old → old.length ≤ content.length := by
  refine ⟨?_, C26_write_replaces_partial db fs fs' board file content h⟩
  intro e old ho
  obtain ⟨old', h1, h2, _⟩ := C26_write_effect db fs fs' board file content h
  rcases h1 with h1 | ⟨h1, _⟩
  · rw [ho] at h1
    cases h1
    rw [e] at h2
    have := congrArg List.length (Res.ok.inj h2)
    rw [List.length_append, List.length_drop] at this
    omega
  · rw [ho] at h1; cases h1

/-! ## C29 -/

/-- **C29 (exact).** The score is the true total exactly if that fits in a signed byte. -/
theorem C29_exact (f : FileHeader) (us : List Int8) :
    (f.addRecommends us).recommendInt = f.recommendInt + (us.map Int8.toInt).sum ↔
      -128 ≤ f.recommendInt + (us.map Int8.toInt).sum ∧ f.recommendInt + (us.map Int8.toInt).sum ≤ 127 := by
  refine ⟨fun h => ?_, fun h => C29_recommend_accumulates_partial f us h.1 h.2⟩
  rw [← h]
  have h1 := (f.addRecommends us).recommend.toInt_lt
  have h2 := (f.addRecommends us).recommend.le_toInt
  simp only [FileHeader.recommendInt]
  omega

/-! ## C35 -/

theorem takeWhile_split (p : Bytes → Bool) (l : List Bytes) : ∃ rest, l = l.takeWhile p ++ rest ∧ (∀ x ∈ l.takeWhile p, p x = true) ∧
    (rest = [] ∨ ∃ x xs, rest = x :: xs ∧ p x = false) := by
  induction l with
  | nil => exact ⟨[], rfl, by simp, .inl rfl⟩
  | cons a l ih =>
    by_cases ha : p a = true
    · obtain ⟨rest, h1, h2, h3⟩ := ih
      refine ⟨rest, ?_, ?_, h3⟩
      · rw [List.takeWhile_cons_of_pos ha, List.cons_append, ← h1]
      · rw [List.takeWhile_cons_of_pos ha]
        exact List.forall_mem_cons.mpr ⟨ha, h2⟩
    · refine ⟨a :: l, ?_, ?_, .inr ⟨a, l, rfl, by simpa using ha⟩⟩
      · rw [List.takeWhile_cons_of_neg ha]; rfl
      · rw [List.takeWhile_cons_of_neg ha]; simp

/-- **C35 (exact).** The lines of an article are those before the first that has 64 KiB or more, and the rest; the comments reported are those of
the former, and none of the latter. -/
theorem C35_exact (board file content : Bytes) : ∃ seen rest, rawLines content = seen ++ rest ∧ (∀ l ∈ seen, l.length < 65536) ∧
    (rest = [] ∨ ∃ l ls, rest = l :: ls ∧ 65536 ≤ l.length) ∧
    ∀ cs, articleComments board file content = .ok cs ↔
      (∀ l ∈ seen.map dropCR, Readable l) ∧ cs = numbered board file ((seen.map dropCR).filterMap lineComment) := by
  obtain ⟨rest, h1, h2, h3⟩ := takeWhile_split (fun l => decide (l.length < 65536)) (rawLines content)
  refine ⟨_, rest, h1, fun l hl => by simpa using h2 l hl, ?_, articleComments_exact board file content⟩
  rcases h3 with h3 | ⟨x, xs, e, hx⟩
  · exact .inl h3
  · exact .inr ⟨x, xs, e, by simpa using hx⟩

theorem numbered_inj {board file : Bytes} {xs ys : List (Bytes × Civil × Bytes)} (h : numbered board file xs = numbered board file ys) : xs = ys := by
  have hl : xs.length = ys.length := by simpa [numbered] using congrArg List.length h
  apply List.ext_getElem hl
  intro i h1 h2
  have := congrArg (fun l => l[i]?) h
  simp only [numbered, List.getElem?_mapIdx, List.getElem?_eq_getElem h1, List.getElem?_eq_getElem h2, Option.map_some, Option.some.injEq,
    UserComment.mk.injEq] at this
  obtain ⟨_, e1, e2, _, _, e3⟩ := this
  exact Prod.ext e2 (Prod.ext e1 e3)

/-- **C35 (exact).** All comments of an article are reported exactly if nothing from the first line of 64 KiB on is a comment. -/
theorem C35_all_exact (board file content : Bytes) (hr : ∀ l ∈ textLines content, Readable l) :
    articleComments board file content = .ok (numbered board file ((textLines content).filterMap lineComment)) ↔
      ∀ seen rest, rawLines content = seen ++ rest → (∃ l ls, rest = l :: ls ∧ 65536 ≤ l.length) →
        (rest.map dropCR).filterMap lineComment = [] := by
  obtain ⟨seen, rest, h1, h2, h3, h4⟩ := C35_exact board file content
  have ht : textLines content = seen.map dropCR ++ rest.map dropCR := by rw [textLines, h1, List.map_append]
  rw [h4]
  constructor
  · rintro ⟨_, e⟩ seen' rest' hsr ⟨l, ls, hl, hlen⟩
    have e := numbered_inj e
    rw [ht, List.filterMap_append] at e
    have e0 : (rest.map dropCR).filterMap lineComment = [] := by
      simpa using e
    -- the long line is in `rest`
    have hle : seen.length ≤ seen'.length := by
      apply Classical.byContradiction
      intro hlt
      have : l ∈ seen := by
        have e1 : (seen ++ rest)[seen'.length]? = (seen' ++ rest')[seen'.length]? := by rw [← h1, hsr]
        rw [List.getElem?_append_left (by omega), List.getElem?_append_right (Nat.le_refl _), Nat.sub_self, hl] at e1
        exact List.mem_of_getElem? e1
      have := h2 l this
      omega
    have e2 : rest' = rest.drop (seen'.length - seen.length) := by
      have e3 : (seen' ++ rest').drop seen'.length = (seen ++ rest).drop seen'.length := by rw [← h1, hsr]
      rw [List.drop_left, List.drop_append, List.drop_eq_nil_of_le hle, List.nil_append] at e3
      exact e3
    rw [List.filterMap_eq_nil_iff] at e0 ⊢
    intro x hx
    refine e0 x ?_
    rw [e2] at hx
    obtain ⟨y, hy, rfl⟩ := List.mem_map.mp hx
    exact List.mem_map_of_mem (List.mem_of_mem_drop hy)
  · intro h
    refine ⟨fun l hl => hr l (by rw [ht]; exact List.mem_append_left _ hl), ?_⟩
    have : (rest.map dropCR).filterMap lineComment = [] := by
      rcases h3 with h3 | h3
      · rw [h3]; rfl
      · exact h seen rest h1 h3
    rw [ht, List.filterMap_append, this, List.append_nil]

example : ∀ l ∈ textLines (ascii "hi\nho"), Readable l := by
  intro l hl
  have : textLines (ascii "hi\nho") = [ascii "hi", ascii "ho"] := by decide +kernel
  rw [this] at hl
  simp only [List.mem_cons, List.not_mem_nil, or_false] at hl
  rcases hl with rfl | rfl
  · exact Or.inr (by decide +kernel)
  · exact Or.inr (by decide +kernel)

/-! ## C109 -/

theorem held_close {t : List Ev} {h : Nat} {x : Outcome} : (held (t ++ [⟨.close, h, x⟩])).locks = (held t).locks := by
  rw [held_snoc]
  simp only [Held.step]
  split <;> rfl

theorem closing_at {body : Nat → Sys Bool} {w : Nat → Outcome} {t t' : List Ev} {r : Bool} (e : closing body w t = (some r, t')) :
    (w t.length ≠ .ok ∧ r = false ∧ t' = t ++ [⟨.open, t.length, w t.length⟩]) ∨
    (w t.length = .ok ∧ ∃ t₁ x, body t.length w (t ++ [⟨.open, t.length, .ok⟩]) = (some r, t₁) ∧ t' = t₁ ++ [⟨.close, t.length, x⟩]) := by
  unfold closing at e
  change Sys.bind Sys.openAny _ w t = _ at e
  unfold Sys.bind Sys.openAny at e
  simp only at e
  by_cases h : w t.length = .ok
  · right
    refine ⟨h, ?_⟩
    rw [if_pos h, h] at e
    change Sys.bind (body t.length) _ w _ = _ at e
    unfold Sys.bind at e
    split at e
    · rename_i a t₁ e1
      change (some a, t₁ ++ [⟨.close, t.length, w t₁.length⟩]) = _ at e
      injection e with e2 e3
      injection e2 with e2
      subst e2
      exact ⟨t₁, w t₁.length, e1, e3.symm⟩
    · cases e
  · left
    rw [if_neg h] at e
    change (some false, t ++ [⟨.open, t.length, w t.length⟩]) = _ at e
    injection e with e1 e2
    injection e1 with e1
    exact ⟨h, e1.symm, e2.symm⟩

/-- Locking first: the rest runs under the lock, and gives it back if it succeeds. -/
theorem locked_exact {rest : Nat → Sys Bool} (hrest : ∀ h (s : Held), Runs (rest h) { s with files := h :: s.files, locks := h :: s.locks }
      fun r u => u.locks = if r then s.locks else h :: s.locks)
    {w : Nat → Outcome} {t t' : List Ev} {r : Bool}
    (e : closing (fun h => do let l ← Sys.call .lock h; if l = .fail then pure false else rest h) w t = (some r, t')) :
    (held t').locks =
      (if r = false ∧ w t.length = .ok ∧ w (t.length + 1) ≠ .fail then [t.length] else []) ++ (held t).locks := by
  rcases closing_at e with ⟨h1, rfl, rfl⟩ | ⟨h1, t₁, x, h2, rfl⟩
  · rw [if_neg (fun h => h1 h.2.1), held_snoc]
    simp [Held.step, h1]
  · rw [held_close]
    change Sys.bind (Sys.call .lock t.length) _ w _ = _ at h2
    unfold Sys.bind Sys.call at h2
    simp only [List.length_append, List.length_singleton] at h2
    have hs : held (t ++ [⟨.open, t.length, .ok⟩]) = { held t with files := t.length :: (held t).files } := by
      rw [held_snoc]; simp [Held.step]
    by_cases hf : w (t.length + 1) = .fail
    · rw [if_pos hf] at h2
      change (some false, _) = _ at h2
      injection h2 with _ h3
      rw [if_neg (fun h => h.2.2 hf), ← h3, held_snoc, hs, hf]
      rfl
    · rw [if_neg hf] at h2
      have := hrest t.length (held t) w _ r t₁ (by rw [held_snoc, hs]; simp [Held.step, hf]) h2
      rw [this]
      cases r <;> simp [h1, hf]

/-- **C109 (exact).** Adding a board leaves the lock behind exactly if the file could be opened and locked and the call failed. -/
theorem C109_add_exact (w : Nat → Outcome) (t t' : List Ev) (r : Bool) (e : appendBoardHeaderSys w t = (some r, t')) :
    (held t').locks =
      (if r = false ∧ w t.length = .ok ∧ w (t.length + 1) ≠ .fail then [t.length] else []) ++ (held t).locks := by
  refine locked_exact (rest := fun h => do
    let c ← Sys.call .convert h
    if c = .fail then pure false
    else
      let o ← Sys.call .write h
      if o = .fail then pure false
      else
        let _ ← Sys.call .unlock h
        pure true) (fun h s => ?_) e
  refine same_then step_convert fun _ => runs_if (fun _ => runs_pure rfl) fun _ => ?_
  refine same_then (step_write (by simp) (by simp)) fun _ => runs_if (fun _ => runs_pure rfl) fun _ => ?_
  refine runs_bind (R := fun _ u => u.locks = s.locks) (runs_call fun x => by simp [Held.step]) ?_
  intro _ u hu
  exact runs_pure hu

/-- **C109 (exact).** Removing a board leaves the lock behind exactly if the file could be opened and locked and the call failed. -/
theorem C109_remove_exact (n : Nat) (w : Nat → Outcome) (t t' : List Ev) (r : Bool) (e : removeBoardHeaderSys n w t = (some r, t')) :
    (held t').locks =
      (if r = false ∧ w t.length = .ok ∧ w (t.length + 1) ≠ .fail then [t.length] else []) ++ (held t).locks := by
  refine locked_exact (rest := fun fi => closing fun fo => do
      let s ← Sys.call .seek fi
      if s = .fail then pure false
      else
        let s ← Sys.call .seek fo
        if s = .fail then pure false
        else
          let c ← copyLoop fo fi n
          if c = false then pure false
          else
            let s ← Sys.call .seek fo
            if s = .fail then pure false
            else
              let _ ← Sys.call .truncate fo
              let _ ← Sys.call .unlock fi
              pure true) (fun h s => ?_) e
  refine closing_runs (fun g => ?_) rfl
  have leave : ∃ u : Held, ({ s with files := g :: h :: s.files, locks := h :: s.locks } : Held) = { u with files := g :: u.files } ∧
      u.locks = if false = true then s.locks else h :: s.locks :=
    ⟨{ s with files := h :: s.files, locks := h :: s.locks }, rfl, rfl⟩
  refine same_then (step_seek (by simp)) fun _ => runs_if (fun _ => runs_pure leave) fun _ => ?_
  refine same_then (step_seek (by simp)) fun _ => runs_if (fun _ => runs_pure leave) fun _ => ?_
  refine runs_bind (copyLoop_same (by simp) (by simp) (by simp) n) ?_
  rintro c _ rfl
  refine runs_if (fun _ => runs_pure leave) fun _ => ?_
  refine same_then (step_seek (by simp)) fun _ => runs_if (fun _ => runs_pure leave) fun _ => ?_
  refine same_then (step_truncate (by simp) (by simp)) fun _ => ?_
  refine runs_bind (R := fun _ u => u = { s with files := g :: h :: s.files }) (runs_call fun x => by simp [Held.step]) ?_
  rintro _ _ rfl
  exact runs_pure ⟨{ s with files := h :: s.files }, rfl, rfl⟩

example : ∃ t', appendBoardHeaderSys (fun i => if i = 3 then .fail else .ok) [] = (some false, t') ∧ (held t').locks = [0] := ⟨_, rfl, by decide⟩

end Verif
