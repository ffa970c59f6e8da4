import Verif.Model.Search
import Verif.Proofs.Script
/-!
# Helper lemmas for functions that make several calls while the database changes
-/

namespace Verif
open Spec

/-- What the function returns when every call finds the same database. -/
def Prog.on {α : Type} (c : Codec) (m : Holding) : Prog α → α
  | .ret a => a
  | .ask op next => (next (intended c m op).2).on c m

/-- The function changes nothing. -/
def Prog.Reader {α : Type} (c : Codec) : Prog α → Prop
  | .ret _ => True
  | .ask op next => (∀ m, (intended c m op).1 = m) ∧ ∀ r, (next r).Reader c

/-- Every call is made on objects with a place. -/
def Prog.Safe {α : Type} (db : DB) (fs : FS) (c : Codec) (m : Holding) : Prog α → Prop
  | .ret _ => True
  | .ask op next => (∀ o, touches op o → Placed db fs o) ∧ (next (intended c m op).2).Safe db fs c m

/-- The function may return `a` when it begins at `m0` and makes its last call at `m1`. -/
inductive Yields (c : Codec) (Le : Holding → Holding → Prop) {α : Type} : Holding → Prog α → Holding → α → Prop where
  | ret {m : Holding} {a : α} : Yields c Le m (.ret a) m a
  | ask {m0 m m1 : Holding} {op : Call} {next : Res Answer → Prog α} {a : α} (h : Le m0 m)
    (hs : Yields c Le m (next (intended c m op).2) m1 a) : Yields c Le m0 (.ask op next) m1 a

/-- Whenever `y` is a list, `x` is a list that is contained in it. -/
def Below {β : Type} (x y : Res (List β)) : Prop := ∀ l', y = .ok l' → ∃ l, x = .ok l ∧ l.Sublist l'

theorem Below.refl {β : Type} (x : Res (List β)) : Below x x := fun l h => ⟨l, h, List.Sublist.refl l⟩

theorem Below.trans {β : Type} {x y z : Res (List β)} (h : Below x y) (h' : Below y z) : Below x z := by
  intro l hl
  obtain ⟨l', h1, h2⟩ := h' l hl
  obtain ⟨l'', h3, h4⟩ := h l' h1
  exact ⟨l'', h3, h4.trans h2⟩

/-- From `m` on, the more is in the database, the more the function returns, also when it makes its calls at several moments. -/
structure Steady (c : Codec) (Le : Holding → Holding → Prop) {β : Type} (m : Holding) (P : Prog (Res (List β))) : Prop where
  mono : ∀ m0 m1, Le m m0 → Le m0 m1 → Below (P.on c m0) (P.on c m1)
  between : ∀ m0 m1 a, Le m m0 → Yields c Le m0 P m1 a → Below (P.on c m0) a ∧ Below a (P.on c m1)

section
variable {c : Codec}

theorem on_bind {α β : Type} {m : Holding} (P : Prog α) (f : α → Prog β) : (P.bind f).on c m = (f (P.on c m)).on c m := by
  induction P with
  | ret a => rfl
  | ask op next ih => exact ih _

theorem on_andThen {α β : Type} {m : Holding} (P : Prog (Res α)) (f : α → Prog (Res β)) :
    (P.andThen f).on c m = (P.on c m >>= fun a => (f a).on c m) := by
  unfold Prog.andThen
  rw [on_bind]
  cases P.on c m <;> rfl

theorem reader_bind {α β : Type} {P : Prog α} {f : α → Prog β} (h : P.Reader c) (hf : ∀ a, (f a).Reader c) : (P.bind f).Reader c := by
  induction P with
  | ret a => exact hf a
  | ask op next ih => exact ⟨h.1, fun r => ih r (h.2 r)⟩

theorem reader_andThen {α β : Type} {P : Prog (Res α)} {f : α → Prog (Res β)} (h : P.Reader c) (hf : ∀ a, (f a).Reader c) :
    (P.andThen f).Reader c := reader_bind h fun a => by
  cases a with
  | ok a => exact hf a
  | err e => trivial
  | panic => trivial
  | diverge => trivial

theorem safe_bind {db : DB} {fs : FS} {α β : Type} {m : Holding} {P : Prog α} {f : α → Prog β} (h : P.Safe db fs c m)
    (hf : (f (P.on c m)).Safe db fs c m) : (P.bind f).Safe db fs c m := by
  induction P with
  | ret a => exact hf
  | ask op next ih => exact ⟨h.1, ih _ h.2 hf⟩

theorem safe_andThen {db : DB} {fs : FS} {α β : Type} {m : Holding} {P : Prog (Res α)} {f : α → Prog (Res β)} (h : P.Safe db fs c m)
    (hf : ∀ a, P.on c m = .ok a → (f a).Safe db fs c m) : (P.andThen f).Safe db fs c m := by
  refine safe_bind h ?_
  cases e : P.on c m with
  | ok a => exact hf a e
  | err e => trivial
  | panic => trivial
  | diverge => trivial

theorem alone_bind {db : DB} {α β : Type} (P : Prog α) (f : α → Prog β) (fs : FS) :
    (P.bind f).alone db c fs = (f (P.alone db c fs).2).alone db c (P.alone db c fs).1 := by
  induction P generalizing fs with
  | ret a => rfl
  | ask op next ih => exact ih _ _

/-- A function that changes nothing and goes on with another one. -/
theorem alone_andThen {db : DB} {α β : Type} {P : Prog (Res α)} {f : α → Prog (Res β)} {fs : FS} {x : Res α} {g : α → Res β}
    (h : P.alone db c fs = (fs, x)) (hf : ∀ a, (f a).alone db c fs = (fs, g a)) : (P.andThen f).alone db c fs = (fs, x >>= g) := by
  unfold Prog.andThen
  rw [alone_bind, h]
  cases x with
  | ok a => exact hf a
  | err e => rfl
  | panic => rfl
  | diverge => rfl

theorem alone_on {db : DB} {fs0 : FS} {α : Type} {m : Holding} {P : Prog α} : ∀ {fs : FS}, Shows db fs0 fs m → P.Reader c → P.Safe db fs0 c m →
    (P.alone db c fs).2 = P.on c m := by
  induction P with
  | ret a => intros; rfl
  | ask op next ih =>
    intro fs h hr hs
    obtain ⟨e, h', _⟩ := call_step (c := c) h op hs.1
    rw [hr.1] at h'
    have := ih (intended c m op).2 h' (hr.2 _) hs.2
    show ((next (op.exec db c fs).2).alone db c (op.exec db c fs).1).2 = _
    rw [e]
    exact this

variable {Le : Holding → Holding → Prop}

theorem yields_le (hrefl : ∀ m, Le m m) (htrans : ∀ x y z, Le x y → Le y z → Le x z) {α : Type} {m0 m1 : Holding} {P : Prog α} {a : α}
    (h : Yields c Le m0 P m1 a) : Le m0 m1 := by
  induction h with
  | ret => exact hrefl _
  | ask h _ ih => exact htrans _ _ _ h ih

theorem yields_bind {α β : Type} {P : Prog α} {f : α → Prog β} {m1 : Holding} {b : β} : ∀ {m0 : Holding},
    Yields c Le m0 (P.bind f) m1 b → ∃ m a, Yields c Le m0 P m a ∧ Yields c Le m (f a) m1 b := by
  induction P with
  | ret a => exact fun h => ⟨_, a, .ret, h⟩
  | ask op next ih =>
    intro m0 h
    cases h with
    | ask h hs =>
      obtain ⟨m, a, h1, h2⟩ := ih _ hs
      exact ⟨m, a, .ask h h1, h2⟩

theorem yields_andThen (hrefl : ∀ m, Le m m) {α β : Type} {P : Prog (Res α)} {f : α → Prog (Res β)} {m0 m1 : Holding} {r : Res β}
    (h : Yields c Le m0 (P.andThen f) m1 r) :
    ∃ m x, Yields c Le m0 P m x ∧ ((∃ a, x = .ok a ∧ Yields c Le m (f a) m1 r) ∨ ((∀ a, x ≠ .ok a) ∧ (∀ b, r ≠ .ok b) ∧ m1 = m)) := by
  obtain ⟨m, x, h1, h2⟩ := yields_bind h
  refine ⟨m, x, h1, ?_⟩
  cases x with
  | ok a => exact Or.inl ⟨a, rfl, h2⟩
  | err e => cases h2; exact Or.inr ⟨by simp, by simp, rfl⟩
  | panic => cases h2; exact Or.inr ⟨by simp, by simp, rfl⟩
  | diverge => cases h2; exact Or.inr ⟨by simp, by simp, rfl⟩

theorem steady_from (htrans : ∀ x y z, Le x y → Le y z → Le x z) {β : Type} {m m' : Holding} {P : Prog (Res (List β))} (h : Steady c Le m P)
    (hm : Le m m') : Steady c Le m' P :=
  ⟨fun m0 m1 h0 => h.mono m0 m1 (htrans _ _ _ hm h0), fun m0 m1 a h0 => h.between m0 m1 a (htrans _ _ _ hm h0)⟩

theorem steady_ret {β : Type} {m : Holding} (x : Res (List β)) : Steady c Le m (.ret x) := by
  refine ⟨fun _ _ _ _ => Below.refl _, ?_⟩
  intro m0 m1 a _ h
  cases h
  exact ⟨Below.refl _, Below.refl _⟩

/-- A function whose only call is its last step returns what it finds at one moment. -/
theorem steady_moment (hrefl : ∀ m, Le m m) (htrans : ∀ x y z, Le x y → Le y z → Le x z) {β : Type} {m : Holding} {P : Prog (Res (List β))}
    (hone : ∀ m0 m1 a, Yields c Le m0 P m1 a → a = P.on c m1) (hmono : ∀ m0 m1, Le m m0 → Le m0 m1 → Below (P.on c m0) (P.on c m1)) :
    Steady c Le m P := by
  refine ⟨hmono, ?_⟩
  intro m0 m1 a h0 h
  have hle := yields_le hrefl htrans h
  rw [hone _ _ _ h]
  exact ⟨hmono m0 m1 h0 hle, Below.refl _⟩

theorem bind_ok {α β : Type} {x : Res α} {f : α → Res β} {b : β} (h : (x >>= f) = .ok b) : ∃ a, x = .ok a ∧ f a = .ok b := by
  cases x with
  | ok a => exact ⟨a, rfl, h⟩
  | err e => cases h
  | panic => cases h
  | diverge => cases h

/-- Two functions one after the other, whose results are joined. -/
theorem steady_append (hrefl : ∀ m, Le m m) (htrans : ∀ x y z, Le x y → Le y z → Le x z) {β γ : Type} {m : Holding} {P : Prog (Res (List γ))}
    {Q : Prog (Res (List β))} {f : List γ → List β} (hf : ∀ l l', l.Sublist l' → (f l).Sublist (f l')) (hP : Steady c Le m P)
    (hQ : Steady c Le m Q) : Steady c Le m (P.andThen fun u => Q.andThen fun v => .ret (.ok (f u ++ v))) := by
  have hon : ∀ m', (P.andThen fun u => Q.andThen fun v => .ret (.ok (f u ++ v))).on c m' =
      (P.on c m' >>= fun u => Q.on c m' >>= fun v => .ok (f u ++ v)) := by
    intro m'
    rw [on_andThen]
    congr 1
    funext u
    rw [on_andThen]
    rfl
  have join : ∀ {x x' : Res (List γ)} {y y' : Res (List β)}, Below x x' → Below y y' →
      Below (x >>= fun u => y >>= fun v => .ok (f u ++ v)) (x' >>= fun u => y' >>= fun v => .ok (f u ++ v)) := by
    intro x x' y y' hx hy l hl
    obtain ⟨u, hu, hl⟩ := bind_ok hl
    obtain ⟨v, hv, hl⟩ := bind_ok hl
    obtain ⟨u0, hu0, su⟩ := hx u hu
    obtain ⟨v0, hv0, sv⟩ := hy v hv
    have hl := Res.ok.inj hl
    subst hl
    exact ⟨f u0 ++ v0, by rw [hu0, hv0]; rfl, (hf _ _ su).append sv⟩
  constructor
  · intro m0 m1 h0 h1
    rw [hon, hon]
    exact join (hP.mono m0 m1 h0 h1) (hQ.mono m0 m1 h0 h1)
  · intro m0 m1 r h0 h
    rw [hon, hon]
    have hle := yields_le hrefl htrans h
    obtain ⟨ma, x, hx, h⟩ := yields_andThen hrefl h
    have la := yields_le hrefl htrans hx
    obtain ⟨p1, p2⟩ := hP.between m0 ma x h0 hx
    rcases h with ⟨u, rfl, h⟩ | ⟨hx1, hr, rfl⟩
    · have lb := yields_le hrefl htrans h
      have p3 := p2.trans (hP.mono ma m1 (htrans _ _ _ h0 la) lb)
      obtain ⟨mb, y, hy, h⟩ := yields_andThen hrefl h
      have lc := yields_le hrefl htrans hy
      obtain ⟨q1, q2⟩ := hQ.between ma mb y (htrans _ _ _ h0 la) hy
      have q0 := (hQ.mono m0 ma h0 la).trans q1
      rcases h with ⟨v, rfl, h⟩ | ⟨hy1, hr, rfl⟩
      · cases h
        exact ⟨join p1 q0, join p3 q2⟩
      · refine ⟨fun l hl => absurd hl (hr l), ?_⟩
        intro l hl
        obtain ⟨u, _, hl⟩ := bind_ok hl
        obtain ⟨v, hv, _⟩ := bind_ok hl
        obtain ⟨v0, hv0, _⟩ := q2 v hv
        exact absurd hv0 (hy1 v0)
    · refine ⟨fun l hl => absurd hl (hr l), ?_⟩
      intro l hl
      obtain ⟨u, hu, _⟩ := bind_ok hl
      obtain ⟨u0, hu0, _⟩ := p2 u hu
      exact absurd hu0 (hx1 u0)

/-- A list is read, and something is done for everything in it. -/
theorem steady_read (hrefl : ∀ m, Le m m) (htrans : ∀ x y z, Le x y → Le y z → Le x z) {β γ : Type} {m : Holding} {P : Prog (Res (List γ))}
    {L : List γ → Prog (Res (List β))} (hone : ∀ m0 m1 a, Yields c Le m0 P m1 a → a = P.on c m1)
    (hgrow : ∀ m0 m1 l', Le m m0 → Le m0 m1 → P.on c m1 = .ok l' → ∃ l, P.on c m0 = .ok l ∧ l <+: l')
    (hL : ∀ m0 l, Le m m0 → P.on c m0 = .ok l → Steady c Le m0 (L l))
    (hpre : ∀ m0 l l', l <+: l' → Below ((L l).on c m0) ((L l').on c m0)) : Steady c Le m (P.andThen L) := by
  have hmono : ∀ m0 m1, Le m m0 → Le m0 m1 → Below ((P.andThen L).on c m0) ((P.andThen L).on c m1) := by
    intro m0 m1 h0 h1
    rw [on_andThen, on_andThen]
    intro l hl
    obtain ⟨a1, ha1, hl⟩ := bind_ok hl
    obtain ⟨a0, ha0, hp⟩ := hgrow m0 m1 a1 h0 h1 ha1
    obtain ⟨l0, e, s⟩ := (((hL m0 a0 h0 ha0).mono m0 m1 (hrefl _) h1).trans (hpre m1 a0 a1 hp)) l hl
    exact ⟨l0, by rw [ha0]; exact e, s⟩
  refine ⟨hmono, ?_⟩
  intro m0 m1 r h0 h
  obtain ⟨ma, x, hx, h⟩ := yields_andThen hrefl h
  have la := yields_le hrefl htrans hx
  have ex := hone _ _ _ hx
  subst ex
  rcases h with ⟨a, ha, h⟩ | ⟨hx1, hr, rfl⟩
  · have lb := yields_le hrefl htrans h
    have lma := htrans _ _ _ h0 la
    obtain ⟨b1, b2⟩ := (hL ma a lma ha).between ma m1 r (hrefl _) h
    constructor
    · refine (hmono m0 ma h0 la).trans ?_
      rw [on_andThen, ha]
      exact b1
    · rw [on_andThen]
      intro l hl
      obtain ⟨a1, ha1, hl⟩ := bind_ok hl
      obtain ⟨a', ha', hp⟩ := hgrow ma m1 a1 lma lb ha1
      have e : a' = a := Res.ok.inj (ha'.symm.trans ha)
      subst e
      exact (b2.trans (hpre m1 a' a1 hp)) l hl
  · refine ⟨fun l hl => absurd hl (hr l), ?_⟩
    rw [on_andThen]
    intro l hl
    obtain ⟨a, ha, _⟩ := bind_ok hl
    exact absurd ha (hx1 a)

end

end Verif
