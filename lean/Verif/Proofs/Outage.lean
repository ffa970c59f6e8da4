import Verif.Spec.Outage
import Verif.Props.Decent
/-!
# Helper lemmas for machines that stop
-/

namespace Verif
open Spec

/-- From what the clients have written, `D`, to what is on the disk after the stop, `D'`. At most `n` writes have begun. -/
def Worn (i : Atomic) (n : Nat) (D D' : Holding) : Prop :=
  ∀ o, D' o = D o ∨ (∃ d x, D o = some d ∧ D' o = some (d ++ x) ∧ ∀ b, o = .articleIndex b → x.length ≤ 128 * n) ∨
    (D o ≠ none ∧ D' o ≠ none ∧ ∃ p op next, i.turn p = .called op next ∧ changes op o ∧ (Overwrites op ∨ ∀ y, ¬ Shared o y))

theorem Worn.some {i : Atomic} {n : Nat} {D D' : Holding} (h : Worn i n D D') {o : Obj} (ho : D o ≠ none) : D' o ≠ none := by
  rcases h o with e | ⟨d, x, _, e, _⟩ | ⟨_, e, _⟩
  · rw [e]; exact ho
  · rw [e]; simp
  · exact e

theorem Worn.more {i : Atomic} {n n' : Nat} {D D' : Holding} (h : Worn i n D D') (hn : n ≤ n') : Worn i n' D D' := by
  intro o
  rcases h o with e | ⟨d, x, e1, e2, e3⟩ | e
  · exact Or.inl e
  · exact Or.inr (Or.inl ⟨d, x, e1, e2, fun b hb => by have := e3 b hb; omega⟩)
  · exact Or.inr (Or.inr e)

/-- One more write has begun. -/
theorem worn_one {db : DB} {fs0 fs : FS} {c : Codec} {i : Atomic} {n : Nat} {D D' : Holding} {op : Call} {j : Job} {p : Nat} {next : Res Answer → Script}
    (hp : i.turn p = .called op next) (hpl : ∀ o, touches op o → Placed db fs0 o) (hs : Sound db c op j D) (hw : Worn i n D D')
    (hS : Shows db fs0 fs D') (k : Nat) : ∃ D'', Shows db fs0 (j.halt fs k) D'' ∧ Worn i (n + 1) D D'' := by
  have place : ∀ {o : Obj}, changes op o → Placed db fs0 o := fun {o} ho => hpl o (by cases op <;> first | exact ho | exact ho.elim)
  cases j with
  | append l bs j' =>
    obtain ⟨o, r, h1, rfl, -, h4, h5⟩ := hs
    obtain ⟨d, hd, hi⟩ := h5 D (Meanwhile.refl op D)
    obtain ⟨d', hd'⟩ := Option.ne_none_iff_exists'.mp (hw.some (o := o) (by rw [hd]; simp))
    have hg : fs.get (at_ db o) = some (.file d') := by rw [hS.content o (place h1), hd']; rfl
    refine ⟨D'.put o (some (d' ++ bs.take k)), ?_, ?_⟩
    · simp only [Job.halt, hg]
      exact shows_put hS (place h1) _
    · intro o'
      by_cases e : o' = o
      · subst e
        have hput : (D'.put o' (some (d' ++ bs.take k))) o' = some (d' ++ bs.take k) := by simp [Holding.put]
        rw [hput]
        have hlen : ∀ b, o' = .articleIndex b → bs.length = 128 := by
          rintro b rfl
          cases op with
          | addRecord b' x =>
            cases h1
            have hi := congrFun (congrArg Prod.fst hi) (.articleIndex b)
            simp only [intended, Holding.put, if_true, hd, Option.getD_some, Option.some.injEq] at hi
            rw [← List.append_cancel_left hi]
            exact x.marshal_length c
          | addBoard => cases h1
          | createArticle => obtain ⟨_, h1⟩ := h1; cases h1
          | writeArticle => cases h1
          | appendArticle => cases h1
          | deleteDraft => cases h1
          | writeDraft => cases h1
          | _ => exact h1.elim
        rcases hw o' with e | ⟨d0, x, e1, e2, e3⟩ | ⟨e1, e2, e3⟩
        · refine Or.inr (Or.inl ⟨d', bs.take k, by rw [← e, hd'], rfl, fun b hb => ?_⟩)
          have := hlen b hb
          rw [List.length_take]
          omega
        · rw [hd'] at e2
          refine Or.inr (Or.inl ⟨d0, x ++ bs.take k, e1, ?_, fun b hb => ?_⟩)
          · rw [← List.append_assoc, ← Option.some.inj e2]
          · have := hlen b hb
            have := e3 b hb
            rw [List.length_append, List.length_take]
            omega
        · exact Or.inr (Or.inr ⟨e1, by simp, e3⟩)
      · have hput : (D'.put o (some (d' ++ bs.take k))) o' = D' o' := by simp [Holding.put, e]
        rw [hput]
        exact hw.more (Nat.le_succ n) o'
  | put l bs j' =>
    obtain ⟨o, r, h1, rfl, -, h4, h5⟩ := hs
    obtain ⟨d, hd, hi⟩ := h5 D (Meanwhile.refl op D)
    obtain ⟨d', hd'⟩ := Option.ne_none_iff_exists'.mp (hw.some (o := o) (by rw [hd]; simp))
    have hg : fs.get (at_ db o) = some (.file d') := by rw [hS.content o (place h1), hd']; rfl
    refine ⟨D'.put o (some (writeAt d' 0 (bs.take k))), ?_, ?_⟩
    · simp only [Job.halt, hg]
      exact shows_put hS (place h1) _
    · intro o'
      by_cases e : o' = o
      · subst e
        have hput : (D'.put o' (some (writeAt d' 0 (bs.take k)))) o' = some (writeAt d' 0 (bs.take k)) := by simp [Holding.put]
        rw [hput]
        exact Or.inr (Or.inr ⟨by rw [hd]; simp, by simp, p, op, next, hp, h1, h4⟩)
      · have hput : (D'.put o (some (writeAt d' 0 (bs.take k)))) o' = D' o' := by simp [Holding.put, e]
        rw [hput]
        exact hw.more (Nat.le_succ n) o'
  | _ => exact ⟨D', hS, hw.more (Nat.le_succ n)⟩

/-- The machine stops. -/
theorem worn_outage {db : DB} {fs0 : FS} {c : Codec} {s : House} {D : Holding} {i : Atomic} (h : Pair db fs0 c s D i)
    (hpl : ∀ p op next, i.turn p = .called op next → ∀ o, touches op o → Placed db fs0 o) (cuts : List (Nat × Nat)) :
    ∃ D', Shows db fs0 (s.outage cuts) D' ∧ Worn i cuts.length D D' := by
  suffices H : ∀ (cuts : List (Nat × Nat)) (fs : FS) (n : Nat) (D1 : Holding), Shows db fs0 fs D1 → Worn i n D D1 →
      ∃ D', Shows db fs0 (cuts.foldl (fun fs x => match s.sessions x.1 with
        | .busy j _ => j.halt fs x.2
        | .idle _ => fs) fs) D' ∧ Worn i (n + cuts.length) D D' by
    obtain ⟨D', h1, h2⟩ := H cuts s.fs 0 D h.holds (fun _ => Or.inl rfl)
    rw [Nat.zero_add] at h2
    exact ⟨D', h1, h2⟩
  intro cuts
  induction cuts with
  | nil => intro fs n D1 h1 h2; exact ⟨D1, h1, h2⟩
  | cons x cuts ih =>
    obtain ⟨p, k⟩ := x
    intro fs n D1 h1 h2
    obtain ⟨D2, h3, h4⟩ : ∃ D2, Shows db fs0 (match s.sessions p with
        | .busy j _ => j.halt fs k
        | .idle _ => fs) D2 ∧ Worn i (n + 1) D D2 := by
      have hc := h.clients p
      generalize hs : s.sessions p = a at hc ⊢
      generalize ht : i.turn p = b at hc
      cases hc with
      | idle y => exact ⟨D1, h1, h2.more (Nat.le_succ n)⟩
      | called j op next hj hd => exact worn_one ht (hpl p op next ht) hd h2 h1 k
      | decided r next => exact ⟨D1, h1, h2.more (Nat.le_succ n)⟩
    obtain ⟨D', h5, h6⟩ := ih _ (n + 1) D2 h3 h4
    exact ⟨D', h5, by rw [List.length_cons, Nat.add_comm cuts.length 1, ← Nat.add_assoc]; exact h6⟩

/-! ## Lists and listed articles -/

/-- The list of a board has grown. -/
theorem worn_list {i : Atomic} {n : Nat} {D D' : Holding} (hg : Ajar D i) (hw : Worn i n D D') (b : Bytes) :
    ∃ x : Bytes, x.length ≤ 128 * n ∧ (D' (.articleIndex b)).getD [] = (i.hold (.articleIndex b)).getD [] ++ x := by
  have h1 : (D (.articleIndex b)).getD [] = (i.hold (.articleIndex b)).getD [] := by
    rcases hg (.articleIndex b) with e | ⟨p, op, next, _, hu⟩
    · rw [e]
    · cases op with
      | addRecord b' r => rw [hu.2.1, hu.2.2]; rfl
      | addBoard => cases hu.1
      | writeArticle => cases hu.1
      | writeDraft => cases hu.1
      | _ => exact hu.elim
  rw [← h1]
  rcases hw (.articleIndex b) with e | ⟨d, x, e1, e2, e3⟩ | ⟨_, _, p, op, next, _, h2, h3⟩
  · exact ⟨[], by simp, by rw [e, List.append_nil]⟩
  · exact ⟨x, e3 b rfl, by rw [e1, e2]; rfl⟩
  · exfalso
    rcases h3 with h3 | h3
    · cases op with
      | writeArticle => cases h2
      | _ => exact h3.elim
    · exact h3 none trivial

/-- An article that nobody writes to has grown. -/
theorem worn_article {R : Rules} {draft : Nat → Bytes → Bytes → Prop} {i : Atomic} {k : Nat → Ken} {n : Nat} {D D' : Holding} (hO : Orderly R draft i k)
    (hg : Ajar D i) (hw : Worn i n D D') {b f y : Bytes} (hy : i.hold (.article b f) = some y) (ho : ∀ p, (k p).own b f = none) :
    ∃ z, D' (.article b f) = some (y ++ z) := by
  have h1 : D (.article b f) = some y := by
    rcases hg (.article b f) with e | ⟨p, op, next, _, hu⟩
    · rw [e, hy]
    · cases op with
      | writeArticle b' f' x => rw [hu.2.2] at hy; cases hy
      | addBoard => cases hu.1
      | addRecord => cases hu.1
      | writeDraft => cases hu.1
      | _ => exact hu.elim
  rcases hw (.article b f) with e | ⟨d, x, e1, e2, _⟩ | ⟨_, _, p, op, next, ht, h2, h3⟩
  · exact ⟨[], by rw [e, h1, List.append_nil]⟩
  · rw [h1] at e1
    exact ⟨x, by rw [e2, Option.some.inj e1]⟩
  · exfalso
    rcases h3 with h3 | h3
    · cases op with
      | writeArticle b' f' x =>
        cases h2
        have := hO.turns p
        rw [ht] at this
        exact this.1 (ho p)
      | _ => exact h3.elim
    · exact h3 none trivial

theorem slot_append {size i : Nat} {d x : Bytes} (h : (i + 1) * size ≤ d.length) : slot size (d ++ x) i = slot size d i := by
  unfold slot slice
  rw [Nat.add_mul, Nat.mul_comm, Nat.one_mul] at h
  rw [List.take_append_of_le_length h]

/-- Reading whole records and what follows. -/
theorem articlesIn_prefix (c : Codec) {d x : Bytes} {n : Nat} (hd : 128 ∣ d.length) (hx : x.length ≤ 128 * n) :
    ∃ begun : List FileHeader, begun.length ≤ n ∧ articlesIn c (d ++ x) = articlesIn c d ++ begun := by
  obtain ⟨m, hm⟩ := hd
  refine ⟨((List.range ((x.length + 127) / 128)).map fun j => slot 128 (d ++ x) (m + j)).map (FileHeader.parse c), ?_, ?_⟩
  · simp only [List.length_map, List.length_range]
    omega
  · unfold articlesIn slots
    have e1 : ((d ++ x).length + 128 - 1) / 128 = m + (x.length + 127) / 128 := by rw [List.length_append]; omega
    have e2 : (d.length + 128 - 1) / 128 = m := by omega
    rw [e1, e2, List.range_add, List.map_append, List.map_append]
    have e3 : (List.range m).map (slot 128 (d ++ x)) = (List.range m).map (slot 128 d) := by
      refine List.map_congr_left fun j hj => slot_append ?_
      have := List.mem_range.mp hj
      omega
    rw [e3, List.map_map (g := slot 128 (d ++ x))]
    rfl

end Verif
