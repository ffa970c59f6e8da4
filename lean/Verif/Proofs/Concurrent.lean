import Verif.Spec.Concurrent
/-!
# Helper lemmas for calls made at the same time
-/

namespace Verif
open Spec

/-! ## How the contents may change while a client waits -/

/-- Others may add to an object. -/
def Grown (o : Obj) (a b : Option Bytes) : Prop := b = a ∨ (Shared o a ∧ Shared o b ∧ ∃ x, b = some (a.getD [] ++ x))

theorem Grown.refl (o : Obj) (a : Option Bytes) : Grown o a a := Or.inl rfl

theorem Grown.trans {o : Obj} {a b d : Option Bytes} (h : Grown o a b) (h' : Grown o b d) : Grown o a d := by
  rcases h with rfl | ⟨h1, h2, x, hx⟩
  · exact h'
  · rcases h' with rfl | ⟨h3, h4, y, hy⟩
    · exact Or.inr ⟨h1, h2, x, hx⟩
    · refine Or.inr ⟨h1, h4, x ++ y, ?_⟩
      rw [hy, hx]
      simp

theorem Grown.some {o : Obj} {a b : Option Bytes} (h : Grown o a b) (ha : a ≠ none) : b ≠ none := by
  rcases h with rfl | ⟨_, _, x, rfl⟩
  · exact ha
  · simp

theorem Grown.shared {o : Obj} {a b : Option Bytes} (h : Grown o a b) (ha : Shared o a) : Shared o b := by
  rcases h with rfl | ⟨_, h, _⟩ <;> assumption

theorem Grown.const {o : Obj} {a b : Option Bytes} (h : Grown o a b) (ha : ¬ Shared o a) : b = a := by
  rcases h with rfl | ⟨h, _, _⟩
  · rfl
  · exact absurd h ha

/-- From one moment to a later one, as far as client `p` can see while it makes no change itself. `own o = some q`: client `q` alone uses `o`. -/
def Later (own : Obj → Option Nat) (p : Nat) (D D' : Holding) : Prop :=
  ∀ o, (own o = none → Grown o (D o) (D' o)) ∧ (own o = some p → D' o = D o)

theorem Later.refl (own : Obj → Option Nat) (p : Nat) (D : Holding) : Later own p D D := fun o => ⟨fun _ => Grown.refl o _, fun _ => rfl⟩

theorem Later.trans {own : Obj → Option Nat} {p : Nat} {D D' D'' : Holding} (h : Later own p D D') (h' : Later own p D' D'') :
    Later own p D D'' :=
  fun o => ⟨fun e => ((h o).1 e).trans ((h' o).1 e), fun e => by rw [(h' o).2 e, (h o).2 e]⟩

/-- `p` may use the object. -/
def Sees (own : Obj → Option Nat) (p : Nat) (o : Obj) : Prop := ∀ q, own o = some q → q = p

theorem Later.grown {own : Obj → Option Nat} {p : Nat} {D D' : Holding} (h : Later own p D D') {o : Obj} (hs : Sees own p o) :
    Grown o (D o) (D' o) := by
  cases e : own o with
  | none => exact (h o).1 e
  | some q =>
    have := hs q e
    subst this
    exact Or.inl ((h o).2 e)

/-- `p` may make this change. -/
def Mine (own : Obj → Option Nat) (p : Nat) (o : Obj) (a b : Option Bytes) : Prop := own o = some p ∨ (own o = none ∧ Grown o a b)

/-! ## Reading in pieces -/

/-- The pieces read so far. -/
def ReadOk (size : Nat) (got : List Bytes) (pos : Nat) (d : Bytes) : Prop :=
  (size = 0 ∧ got.flatten = d.take pos ∧ pos ≤ d.length) ∨
  (0 < size ∧ got = (List.range got.length).map (fun k => slice d (size * k) (size * k + size)) ∧ pos = min (size * got.length) d.length ∧
    size * got.length < d.length + size)

/-- All the pieces. -/
def Complete (size : Nat) (got : List Bytes) (d : Bytes) : Prop :=
  (size = 0 ∧ got.flatten = d) ∨ (0 < size ∧ got.map (padTo size) = slots size d)

theorem ReadOk.start (size : Nat) (d : Bytes) : ReadOk size [] 0 d := by
  by_cases h : size = 0
  · left; simp [h]
  · right; simp; omega

theorem slice_append {d x : Bytes} {a b : Nat} (h : b ≤ d.length) : slice (d ++ x) a b = slice d a b := by
  unfold slice
  rw [List.take_append_of_le_length h]

theorem ReadOk.grow {size : Nat} {got : List Bytes} {pos : Nat} {d x : Bytes} (h : ReadOk size got pos d) (hx : size ∣ d.length ∨ size = 0) :
    ReadOk size got pos (d ++ x) := by
  rcases h with ⟨h0, h1, h2⟩ | ⟨h0, h1, h2, h3⟩
  · left
    refine ⟨h0, ?_, by simp; omega⟩
    rw [h1, List.take_append_of_le_length h2]
  · right
    have hd : size ∣ d.length := by rcases hx with h | h; exact h; omega
    have h4 : size * got.length ≤ d.length := by
      obtain ⟨n, hn⟩ := hd
      rw [hn] at h3 ⊢
      have : got.length < n + 1 := by
        have : size * got.length < size * (n + 1) := by rw [Nat.mul_add]; omega
        exact Nat.lt_of_mul_lt_mul_left this
      exact Nat.mul_le_mul_left _ (by omega)
    refine ⟨h0, ?_, by simp; omega, by simp; omega⟩
    refine h1.trans (List.map_congr_left ?_)
    intro k hk
    have hk := List.mem_range.mp hk
    rw [slice_append]
    have : size * (k + 1) ≤ size * got.length := Nat.mul_le_mul_left _ hk
    rw [Nat.mul_add] at this
    omega

theorem ReadOk.step {size : Nat} {got : List Bytes} {pos : Nat} {d : Bytes} (h : ReadOk size got pos d) (hp : pos < d.length) (n : Nat) :
    ReadOk size (got ++ [slice d pos (pos + if size = 0 then n + 1 else size)])
      (pos + (slice d pos (pos + if size = 0 then n + 1 else size)).length) d := by
  rcases h with ⟨h0, h1, h2⟩ | ⟨h0, h1, h2, h3⟩
  · left
    simp only [h0, if_true, true_and]
    have e : (slice d pos (pos + (n + 1))).length = min (pos + (n + 1)) d.length - pos := by simp [slice]
    constructor
    · rw [List.flatten_append, h1, List.flatten_singleton, e]
      unfold slice
      have : pos + (min (pos + (n + 1)) d.length - pos) = min (pos + (n + 1)) d.length := by omega
      rw [this]
      have t : d.take pos = (d.take (pos + (n + 1))).take pos := by rw [List.take_take]; congr 1; omega
      rw [t, List.take_append_drop, ← List.take_take, List.take_length]
    · rw [e]; omega
  · right
    have hs : ¬ size = 0 := by omega
    have hpos : pos = size * got.length := by omega
    have e : (slice d pos (pos + size)).length = min (pos + size) d.length - pos := by simp [slice]
    simp only [hs, if_false, List.length_append, List.length_singleton, e]
    refine ⟨h0, ?_, ?_, ?_⟩
    · rw [List.range_succ, List.map_append, ← h1, hpos]
      rfl
    · rw [Nat.mul_add]; omega
    · rw [Nat.mul_add]; omega

theorem ReadOk.complete {size : Nat} {got : List Bytes} {pos : Nat} {d : Bytes} (h : ReadOk size got pos d) (hp : ¬ pos < d.length) :
    Complete size got d := by
  rcases h with ⟨h0, h1, h2⟩ | ⟨h0, h1, h2, h3⟩
  · left
    refine ⟨h0, ?_⟩
    rw [h1, List.take_of_length_le (by omega)]
  · right
    refine ⟨h0, ?_⟩
    have hn : (d.length + size - 1) / size = got.length := by
      apply Nat.div_eq_of_lt_le
      · rw [Nat.mul_comm]; omega
      · rw [Nat.add_mul, Nat.mul_comm]; omega
    rw [h1]
    unfold slots
    rw [hn, List.map_map]
    rfl

theorem Res.lawful : LawfulMonad Res :=
  LawfulMonad.mk' Res (fun x => by cases x <;> rfl) (fun _ _ => rfl) (fun x _ _ => by cases x <;> rfl)

theorem mapM_pieces {α : Type} {size : Nat} {parse : Bytes → Res α} {f : Bytes → α} (hp : ∀ b, b.length = size → parse b = .ok (f b))
    (got : List Bytes) : (got.mapM fun b => parse (padTo size b)) = .ok ((got.map (padTo size)).map f) := by
  have := Res.lawful
  induction got with
  | nil => rfl
  | cons b got ih =>
    rw [List.mapM_cons, hp _ (padTo_length _ _), Res.ok_bind, ih]
    rfl

/-! ## A client that will give the right answer -/

/-- Opening a file for writing is seen by others before anything is written. -/
def Unseen (o : Obj) (a b : Option Bytes) : Call → Prop
  | .addBoard _ => o = .boardList ∧ a = some [] ∧ b = none
  | .addRecord br _ => o = .articleIndex br ∧ a = some [] ∧ b = none
  | .writeArticle br f _ => o = .article br f ∧ a = some [] ∧ b = none
  | .writeDraft u d _ => o = .draft u d ∧ a = some []
  | _ => False

/-- Client `p` is making the call `op` and has `j` still to do; the objects hold `D`. Whatever the others do meanwhile, it will give the answer of
the ideal database at some moment. -/
def Right (db : DB) (fs0 : FS) (c : Codec) (own : Obj → Option Nat) (p : Nat) (op : Call) : Job → Holding → Prop
  | .done r => fun D => intended c D op = (D, r)
  | .stat q k => fun D => ∃ o, Placed db fs0 o ∧ o.path db.home = .ok q ∧ ∀ D', Later own p D D' → Right db fs0 c own p op (k (D' o).isSome) D'
  | .openRead q k => fun D => ∃ o, Placed db fs0 o ∧ o.path db.home = .ok q ∧
    ∀ D', Later own p D D' → (D' o ≠ none → Right db fs0 c own p op (k (.ok (at_ db o))) D') ∧
      (D' o = none → Right db fs0 c own p op (k (.err "no such file or directory")) D')
  | .openWrite q k => fun D => ∃ o, Placed db fs0 o ∧ o.path db.home = .ok q ∧
    ∀ D', Later own p D D' → (D' o ≠ none → Right db fs0 c own p op (k (.ok (at_ db o))) D') ∧
      (D' o = none → Right db fs0 c own p op (k (.err "no such file or directory")) D')
  | .openMake q k => fun D => ∃ o, Placed db fs0 o ∧ o.path db.home = .ok q ∧
    ∀ D', Later own p D D' → (D' o ≠ none → Right db fs0 c own p op (k (.ok (at_ db o))) D') ∧
      (D' o = none → (∀ r, k (.ok (at_ db o)) ≠ .done r) ∧ Unseen o (some []) none op ∧ Mine own p o none (some []) ∧
        Right db fs0 c own p op (k (.ok (at_ db o))) (D'.put o (some [])))
  | .openTrunc q k => fun D => ∃ o, Placed db fs0 o ∧ o.path db.home = .ok q ∧ own o = some p ∧ (∀ r, k (.ok (at_ db o)) ≠ .done r) ∧
    (∀ b, Unseen o (some []) b op) ∧ ∀ D', Later own p D D' → Right db fs0 c own p op (k (.ok (at_ db o))) (D'.put o (some []))
  | .openExcl q k => fun D => ∃ o, Placed db fs0 o ∧ o.path db.home = .ok q ∧
    ∀ D', Later own p D D' → (D' o ≠ none → Right db fs0 c own p op (k false) D') ∧
      (D' o = none → Mine own p o none (some []) ∧ ∃ r, k true = .done r ∧ intended c D' op = (D'.put o (some []), r))
  | .read l size got pos k => fun D => ∃ o, Placed db fs0 o ∧ l = at_ db o ∧ Sees own p o ∧ (size = 0 ∨ ∀ x, Shared o (some x) → size ∣ x.length) ∧
    (∃ d, D o = some d ∧ ReadOk size got pos d) ∧
    ∀ D' d' got', Later own p D D' → D' o = some d' → Complete size got' d' → Right db fs0 c own p op (k (.ok got')) D'
  | .append l bs k => fun D => ∃ o r, Placed db fs0 o ∧ l = at_ db o ∧ k = .done r ∧
    ∀ D', Later own p D D' → ∃ d, D' o = some d ∧ Mine own p o (some d) (some (d ++ bs)) ∧ intended c D' op = (D'.put o (some (d ++ bs)), r)
  | .put l bs k => fun D => ∃ o r, Placed db fs0 o ∧ l = at_ db o ∧ k = .done r ∧
    ∀ D', Later own p D D' → ∃ d, D' o = some d ∧ own o = some p ∧ intended c D' op = (D'.put o (some (writeAt d 0 bs)), r)
  | .unlink q k => fun D => ∃ o r r', Placed db fs0 o ∧ o.path db.home = .ok q ∧ own o = some p ∧ k (.ok ()) = .done r ∧
    k (.err "no such file or directory") = .done r' ∧
    ∀ D', Later own p D D' → (D' o ≠ none → intended c D' op = (D'.put o none, r)) ∧ (D' o = none → intended c D' op = (D', r'))

theorem Right.later {db : DB} {fs0 : FS} {c : Codec} {own : Obj → Option Nat} {p : Nat} {op : Call} {j : Job} {D D' : Holding}
    (h : Right db fs0 c own p op j D) (hj : ∀ r, j ≠ .done r) (hl : Later own p D D') : Right db fs0 c own p op j D' := by
  cases j with
  | done r => exact absurd rfl (hj r)
  | stat q k => obtain ⟨o, h1, h2, h3⟩ := h; exact ⟨o, h1, h2, fun D'' h' => h3 D'' (hl.trans h')⟩
  | openRead q k => obtain ⟨o, h1, h2, h3⟩ := h; exact ⟨o, h1, h2, fun D'' h' => h3 D'' (hl.trans h')⟩
  | openWrite q k => obtain ⟨o, h1, h2, h3⟩ := h; exact ⟨o, h1, h2, fun D'' h' => h3 D'' (hl.trans h')⟩
  | openMake q k => obtain ⟨o, h1, h2, h3⟩ := h; exact ⟨o, h1, h2, fun D'' h' => h3 D'' (hl.trans h')⟩
  | openTrunc q k => obtain ⟨o, h1, h2, h3, h4, h5, h6⟩ := h; exact ⟨o, h1, h2, h3, h4, h5, fun D'' h' => h6 D'' (hl.trans h')⟩
  | openExcl q k => obtain ⟨o, h1, h2, h3⟩ := h; exact ⟨o, h1, h2, fun D'' h' => h3 D'' (hl.trans h')⟩
  | append l bs k => obtain ⟨o, r, h1, h2, h3, h4⟩ := h; exact ⟨o, r, h1, h2, h3, fun D'' h' => h4 D'' (hl.trans h')⟩
  | put l bs k => obtain ⟨o, r, h1, h2, h3, h4⟩ := h; exact ⟨o, r, h1, h2, h3, fun D'' h' => h4 D'' (hl.trans h')⟩
  | unlink q k =>
    obtain ⟨o, r, r', h1, h2, h3, h4, h5, h6⟩ := h
    exact ⟨o, r, r', h1, h2, h3, h4, h5, fun D'' h' => h6 D'' (hl.trans h')⟩
  | read l size got pos k =>
    obtain ⟨o, h1, h2, h3, h4, ⟨d, hd, hr⟩, h5⟩ := h
    refine ⟨o, h1, h2, h3, h4, ?_, fun D'' d' got' h' => h5 D'' d' got' (hl.trans h')⟩
    rcases hl.grown h3 with e | ⟨e1, e2, x, e3⟩
    · exact ⟨d, by rw [e, hd], hr⟩
    · rw [hd] at e1 e3
      refine ⟨d ++ x, e3, hr.grow ?_⟩
      rcases h4 with h | h
      · exact Or.inr h
      · exact Or.inl (h _ e1)

/-- One system call of a client. Either it goes on, having changed nothing that matters but perhaps opened a file for writing; or it has its
answer, and this is the moment at which the ideal database carries out the call. -/
theorem job_step {db : DB} {fs0 fs : FS} {c : Codec} {own : Obj → Option Nat} {p : Nat} {op : Call} {j : Job} {D : Holding}
    (hS : Shows db fs0 fs D) (h : Right db fs0 c own p op j D) (hj : ∀ r, j ≠ .done r) (n : Nat) :
    ∃ D', Shows db fs0 (j.step db.cwd fs n).1 D' ∧
      (D' = D ∨ ∃ o x, D' = D.put o x ∧ Mine own p o (D o) x) ∧
      (((∀ r, (j.step db.cwd fs n).2 ≠ .done r) ∧ Right db fs0 c own p op (j.step db.cwd fs n).2 D' ∧
          (D' = D ∨ ∃ o, D' = D.put o (some []) ∧ Mine own p o (D o) (some []) ∧
            ((D o = none ∧ Unseen o (some []) none op) ∨ (own o = some p ∧ ∀ b, Unseen o (some []) b op)))) ∨
        ∃ r, (j.step db.cwd fs n).2 = .done r ∧ intended c D op = (D', r)) := by
  have refl := Later.refl own p D
  have place : ∀ {o : Obj} {q : Bytes}, Placed db fs0 o → o.path db.home = .ok q → fs.lookup db.cwd q = .ok (at_ db o) := by
    intro o q ho hq
    obtain ⟨q', hq', hl⟩ := shows_place hS ho
    rw [hq] at hq'
    have e := Res.ok.inj hq'
    subst e
    exact hl
  have goOn : ∀ {fs' : FS} {j' : Job}, fs' = fs → Right db fs0 c own p op j' D →
      ∃ D', Shows db fs0 fs' D' ∧ (D' = D ∨ ∃ o x, D' = D.put o x ∧ Mine own p o (D o) x) ∧
      (((∀ r, j' ≠ .done r) ∧ Right db fs0 c own p op j' D' ∧ (D' = D ∨ ∃ o, D' = D.put o (some []) ∧ Mine own p o (D o) (some []) ∧
            ((D o = none ∧ Unseen o (some []) none op) ∨ (own o = some p ∧ ∀ b, Unseen o (some []) b op)))) ∨
        ∃ r, j' = .done r ∧ intended c D op = (D', r)) := by
    intro fs' j' e hr
    subst e
    refine ⟨D, hS, Or.inl rfl, ?_⟩
    by_cases hd : ∃ r, j' = .done r
    · obtain ⟨r, rfl⟩ := hd
      exact Or.inr ⟨r, rfl, hr⟩
    · exact Or.inl ⟨fun r e => hd ⟨r, e⟩, hr, Or.inl rfl⟩
  cases j with
  | done r => exact absurd rfl (hj r)
  | stat q k =>
    obtain ⟨o, ho, hq, hk⟩ := h
    refine goOn rfl ?_
    have := hk D refl
    have e : fs.statOk db.cwd q = (D o).isSome := by
      simp only [FS.statOk, place ho hq, hS.content o ho]
      cases D o <;> rfl
    rw [← e] at this
    exact this
  | openRead q k =>
    obtain ⟨o, ho, hq, hk⟩ := h
    refine goOn rfl ?_
    show Right db fs0 c own p op (k (Job.opened fs db.cwd q false)) D
    have hc := hS.content o ho
    unfold Job.opened
    rw [place ho hq, Res.ok_bind, hc]
    cases e : D o with
    | none => exact (hk D refl).2 e
    | some d => exact (hk D refl).1 (by rw [e]; simp)
  | openWrite q k =>
    obtain ⟨o, ho, hq, hk⟩ := h
    refine goOn rfl ?_
    show Right db fs0 c own p op (k (Job.opened fs db.cwd q true)) D
    have hc := hS.content o ho
    unfold Job.opened
    rw [place ho hq, Res.ok_bind, hc]
    cases e : D o with
    | none => exact (hk D refl).2 e
    | some d => exact (hk D refl).1 (by rw [e]; simp)
  | openMake q k =>
    obtain ⟨o, ho, hq, hk⟩ := h
    have hc := hS.content o ho
    have e1 : fs.openCreate db.cwd q = .ok (at_ db o, (fileAt fs (at_ db o)).getD []) := FS.openCreate_of (place ho hq) (shows_notDir hS ho)
    simp only [Job.step, e1, hc]
    cases e : D o with
    | none =>
      obtain ⟨h1, h2, h3, h4⟩ := (hk D refl).2 e
      exact ⟨_, shows_put hS ho [], Or.inr ⟨o, _, rfl, e ▸ h3⟩, Or.inl ⟨h1, h4, Or.inr ⟨o, rfl, e ▸ h3, Or.inl ⟨e, h2⟩⟩⟩⟩
    | some d => exact goOn rfl ((hk D refl).1 (by rw [e]; simp))
  | openTrunc q k =>
    obtain ⟨o, ho, hq, h1, h2, h3, h4⟩ := h
    have e1 : fs.openCreate db.cwd q = .ok (at_ db o, (fileAt fs (at_ db o)).getD []) := FS.openCreate_of (place ho hq) (shows_notDir hS ho)
    simp only [Job.step, e1]
    exact ⟨_, shows_put hS ho [], Or.inr ⟨o, _, rfl, Or.inl h1⟩, Or.inl ⟨h2, h4 D refl, Or.inr ⟨o, rfl, Or.inl h1, Or.inr ⟨h1, h3⟩⟩⟩⟩
  | openExcl q k =>
    obtain ⟨o, ho, hq, hk⟩ := h
    have hc := hS.content o ho
    simp only [Job.step, createExcl_place (place ho hq), hc]
    cases e : D o with
    | none =>
      obtain ⟨h1, r, h2, h3⟩ := (hk D refl).2 e
      exact ⟨_, shows_put hS ho [], Or.inr ⟨o, _, rfl, e ▸ h1⟩, Or.inr ⟨r, h2, h3⟩⟩
    | some d => exact goOn rfl ((hk D refl).1 (by rw [e]; simp))
  | read l size got pos k =>
    obtain ⟨o, ho, hl, h3, h4, ⟨d, hd, hr⟩, h5⟩ := h
    subst hl
    have hc := hS.content o ho
    rw [hd] at hc
    simp only [Job.step, hc, Option.map_some]
    by_cases hp : pos < d.length
    · rw [if_pos hp]
      exact goOn rfl ⟨o, ho, rfl, h3, h4, ⟨d, hd, hr.step hp n⟩, h5⟩
    · rw [if_neg hp]
      exact goOn rfl (h5 D d got refl hd (hr.complete hp))
  | append l bs k =>
    obtain ⟨o, r, ho, hl, hk, h4⟩ := h
    subst hl
    obtain ⟨d, hd, hm, hi⟩ := h4 D refl
    have hc := hS.content o ho
    rw [hd] at hc
    simp only [Job.step, hc, Option.map_some]
    exact ⟨_, shows_put hS ho _, Or.inr ⟨o, _, rfl, hd ▸ hm⟩, Or.inr ⟨r, hk, hi⟩⟩
  | put l bs k =>
    obtain ⟨o, r, ho, hl, hk, h4⟩ := h
    subst hl
    obtain ⟨d, hd, hm, hi⟩ := h4 D refl
    have hc := hS.content o ho
    rw [hd] at hc
    simp only [Job.step, hc, Option.map_some]
    exact ⟨_, shows_put hS ho _, Or.inr ⟨o, _, rfl, Or.inl hm⟩, Or.inr ⟨r, hk, hi⟩⟩
  | unlink q k =>
    obtain ⟨o, r, r', ho, hq, h1, h2, h3, h4⟩ := h
    have hc := hS.content o ho
    have e1 : fs.remove db.cwd q = match D o with
        | none => .err "no such file or directory"
        | some _ => .ok (fs.del (at_ db o)) := by
      unfold FS.remove
      rw [place ho hq, Res.ok_bind, hc]
      cases D o <;> rfl
    simp only [Job.step, e1]
    cases e : D o with
    | none => exact ⟨D, hS, Or.inl rfl, Or.inr ⟨r', h3, (h4 D refl).2 e⟩⟩
    | some d => exact ⟨_, shows_drop hS ho, Or.inr ⟨o, _, rfl, Or.inl h1⟩, Or.inr ⟨r, h2, (h4 D refl).1 (by rw [e]; simp)⟩⟩

/-! ## The calls -/

section Start

variable {db : DB} {fs0 : FS} {c : Codec} {own : Obj → Option Nat} {p : Nat} {op : Call} {D : Holding}

theorem right_list {α : Type} {o : Obj} {q : Bytes} {size : Nat} {parse : Bytes → Res α} {f : Bytes → α} {k : List α → Job}
    (ho : Placed db fs0 o) (hq : o.path db.home = .ok q) (hs : Sees own p o) (h0 : 0 < size) (hz : ∀ x, Shared o (some x) → size ∣ x.length)
    (hp : ∀ b, b.length = size → parse b = .ok (f b))
    (hsome : ∀ D' d, Later own p D D' → D' o = some d → Right db fs0 c own p op (k ((slots size d).map f)) D')
    (hnone : ∀ D', Later own p D D' → D' o = none → intended c D' op = (D', .err "no such file or directory")) :
    Right db fs0 c own p op (Job.readList q size parse k) D := by
  refine ⟨o, ho, hq, fun D1 l1 => ⟨fun h => ?_, fun h => hnone D1 l1 h⟩⟩
  obtain ⟨d1, hd1⟩ := Option.ne_none_iff_exists'.mp h
  refine ⟨o, ho, rfl, hs, Or.inr hz, ⟨d1, hd1, ReadOk.start size d1⟩, ?_⟩
  intro D2 d2 got l2 hd2 hc
  have hc : got.map (padTo size) = slots size d2 := by
    rcases hc with ⟨h, _⟩ | ⟨_, h⟩
    · omega
    · exact h
  show Right db fs0 c own p op (Job.orStop k (got.mapM fun b => parse (padTo size b))) D2
  rw [mapM_pieces hp, hc]
  exact hsome D2 d2 (l1.trans l2) hd2

theorem right_whole {o : Obj} {q : Bytes} {k : Bytes → Job} (ho : Placed db fs0 o) (hq : o.path db.home = .ok q) (hs : Sees own p o)
    (hsome : ∀ D' d, Later own p D D' → D' o = some d → Right db fs0 c own p op (k d) D')
    (hnone : ∀ D', Later own p D D' → D' o = none → intended c D' op = (D', .err "no such file or directory")) :
    Right db fs0 c own p op (Job.readWhole q k) D := by
  refine ⟨o, ho, hq, fun D1 l1 => ⟨fun h => ?_, fun h => hnone D1 l1 h⟩⟩
  obtain ⟨d1, hd1⟩ := Option.ne_none_iff_exists'.mp h
  refine ⟨o, ho, rfl, hs, Or.inl rfl, ⟨d1, hd1, ReadOk.start 0 d1⟩, ?_⟩
  intro D2 d2 got l2 hd2 hc
  have hc : got.flatten = d2 := by
    rcases hc with ⟨_, h⟩ | ⟨h, _⟩
    · exact h
    · omega
  show Right db fs0 c own p op (k got.flatten) D2
  rw [hc]
  exact hsome D2 d2 (l1.trans l2) hd2

/-- An object that may be shared and that exists stays so. -/
theorem later_some {D' : Holding} (h : Later own p D D') {o : Obj} (hs : Sees own p o) {d : Bytes} (hd : D o = some d) :
    ∃ d', D' o = some d' := by
  have := (h.grown hs).some (by rw [hd]; simp)
  exact Option.ne_none_iff_exists'.mp this

theorem put_self (D : Holding) (o : Obj) (x : Option Bytes) : D.put o x o = x := by
  unfold Holding.put
  rw [if_pos rfl]

theorem put_other (D : Holding) {o o' : Obj} (x : Option Bytes) (h : o' ≠ o) : D.put o x o' = D o' := by
  unfold Holding.put
  rw [if_neg h]

/-- Opening with `O_APPEND|O_CREATE`, then writing. -/
theorem right_add {o : Obj} {q bs : Bytes} {r : Res Answer} (ho : Placed db fs0 o) (hq : o.path db.home = .ok q) (hs : Sees own p o)
    (hm : own o = some p ∨ (own o = none ∧ Shared o (D o))) (hsh : ∀ d, Shared o (some d) → Shared o (some (d ++ bs)))
    (hn : Shared o none → Shared o (some [])) (hu : Unseen o (some []) none op)
    (hi : ∀ D', intended c D' op = (D'.put o (some ((D' o).getD [] ++ bs)), r)) :
    Right db fs0 c own p op (.openMake q (Job.orStop fun l => .append l bs (.done r))) D := by
  have key : ∀ D1, (own o = some p ∨ (own o = none ∧ Shared o (D1 o))) → D1 o ≠ none →
      Right db fs0 c own p op (.append (at_ db o) bs (.done r)) D1 := by
    intro D1 hm1 h1
    refine ⟨o, r, ho, rfl, rfl, ?_⟩
    intro D2 l2
    obtain ⟨d1, hd1⟩ := Option.ne_none_iff_exists'.mp h1
    obtain ⟨d2, hd2⟩ := later_some l2 hs hd1
    refine ⟨d2, hd2, ?_, by rw [hi D2, hd2]; rfl⟩
    rcases hm1 with h | ⟨h, h'⟩
    · exact Or.inl h
    · have hsd := ((l2 o).1 h).shared h'
      rw [hd2] at hsd
      exact Or.inr ⟨h, Or.inr ⟨hsd, hsh _ hsd, bs, rfl⟩⟩
  refine ⟨o, ho, hq, ?_⟩
  intro D1 l1
  have hm1 : own o = some p ∨ (own o = none ∧ Shared o (D1 o)) := by
    rcases hm with h | ⟨h, h'⟩
    · exact Or.inl h
    · exact Or.inr ⟨h, ((l1 o).1 h).shared h'⟩
  refine ⟨fun h => key D1 hm1 h, fun h => ⟨fun r e => (by cases e), hu, ?_, ?_⟩⟩
  · rcases hm1 with h1 | ⟨h1, h2⟩
    · exact Or.inl h1
    · rw [h] at h2
      exact Or.inr ⟨h1, Or.inr ⟨h2, hn h2, [], rfl⟩⟩
  · refine key _ ?_ (by rw [put_self]; simp)
    rw [put_self]
    rcases hm1 with h1 | ⟨h1, h2⟩
    · exact Or.inl h1
    · rw [h] at h2
      exact Or.inr ⟨h1, hn h2⟩

theorem right_tries {b ow dt t : Bytes} {draw : Nat → Int × Fin 4096} {fuel0 : Nat} (hop : op = .createArticle b ow dt t draw fuel0)
    (ho : ∀ k, Placed db fs0 (.article b (DB.articleName (draw k).1 (draw k).2)))
    (hs : ∀ k, Sees own p (.article b (DB.articleName (draw k).1 (draw k).2))) :
    ∀ (fuel k : Nat) (D : Holding), freeName D b draw fuel0 0 = freeName D b draw fuel k →
    (∀ j, j < k → D (.article b (DB.articleName (draw j).1 (draw j).2)) ≠ none) → k + fuel = fuel0 →
    Right db fs0 c own p op (Job.tryNames db b ow dt t draw fuel k) D := by
  intro fuel
  induction fuel with
  | zero =>
    intro k D h1 _ _
    show intended c D op = (D, .diverge)
    rw [hop]
    simp only [intended, h1, freeName]
  | succ fuel ih =>
    intro k D h1 h2 hk
    obtain ⟨q, l, hq, _⟩ := (ho k).place
    have hq' : getBoardArticleFilePath db.home b (DB.articleName (draw k).1 (draw k).2) = .ok q := hq
    simp only [Job.tryNames, hq', Job.orStop]
    refine ⟨_, ho k, hq, ?_⟩
    intro D1 l1
    have h3 : ∀ j, j < k → D1 (.article b (DB.articleName (draw j).1 (draw j).2)) ≠ none :=
      fun j hj => (l1.grown (hs j)).some (h2 j hj)
    have skip : ∀ i, i ≤ k → freeName D1 b draw fuel0 0 = freeName D1 b draw (fuel0 - i) i := by
      intro i
      induction i with
      | zero => intro _; rfl
      | succ i ih' =>
        intro hi
        rw [ih' (by omega)]
        have e : fuel0 - i = (fuel0 - (i + 1)) + 1 := by omega
        rw [e]
        simp only [freeName]
        rw [if_neg (h3 i (by omega))]
    have hk' : fuel0 - k = fuel + 1 := by omega
    have hf := skip k (Nat.le_refl _)
    rw [hk'] at hf
    simp only [freeName] at hf
    refine ⟨fun h => ?_, fun h => ⟨?_, _, rfl, ?_⟩⟩
    · rw [if_neg h] at hf
      refine ih (k + 1) D1 hf ?_ (by omega)
      intro j hj
      rcases Nat.lt_or_ge j k with h' | h'
      · exact h3 j h'
      · have : j = k := by omega
        subst this
        exact h
    · cases e : own (.article b (DB.articleName (draw k).1 (draw k).2)) with
      | none => exact Or.inr ⟨e, Or.inr ⟨trivial, trivial, [], rfl⟩⟩
      | some p' =>
        have := hs k p' e
        subst this
        exact Or.inl e
    · rw [if_pos h] at hf
      rw [hop]
      simp only [intended, hf]

/-- Every call starts well. -/
theorem right_start (hop : ∀ o, touches op o → Placed db fs0 o) (hsees : ∀ o, touches op o → Sees own p o)
    (hmine : ∀ o, changes op o → own o = some p ∨ (own o = none ∧ Shared o (D o) ∧ ∀ b f x, op ≠ .writeArticle b f x)) :
    Right db fs0 c own p op (Job.start db c op) D := by
  have path : ∀ {o : Obj}, touches op o → ∃ q, o.path db.home = .ok q := by
    intro o ho
    obtain ⟨q, l, hq, _⟩ := (hop o ho).place
    exact ⟨q, hq⟩
  have dvd : ∀ (n : Nat) (o : Obj), (∀ x, ¬ Shared o x) → ∀ x, Shared o (some x) → n ∣ x.length := fun n o h x hx => absurd hx (h _)
  cases op with
  | readUsers =>
    obtain ⟨q, hq⟩ := path (o := .passwd) rfl
    have hq' : getPasswdsPath db.home = .ok q := hq
    simp only [Job.start, hq', Job.orStop]
    refine right_list (hop _ rfl) hq (hsees _ rfl) (by omega) (dvd _ _ (fun x h => h.elim)) (Userec.unmarshal_eq c) ?_ ?_
    · intro D' d _ hd
      simp only [Right, intended, Holding.need, hd, Res.ok_bind]
    · intro D' _ hd
      simp only [intended, Holding.need, hd]
      rfl
  | readFavourites u =>
    obtain ⟨q, hq⟩ := path (o := .favourite u) (Or.inl rfl)
    obtain ⟨bq, hbq⟩ := path (o := .boardList) (Or.inr rfl)
    have hq' : getUserFavoritePath db.home u = .ok q := hq
    have hbq' : getBoardPath db.home = .ok bq := hbq
    have hs1 := hsees (.favourite u) (Or.inl rfl)
    have same : ∀ {D' D'' : Holding}, Later own p D' D'' → D'' (.favourite u) = D' (.favourite u) :=
      fun l => (l.grown hs1).const (fun h => h.elim)
    simp only [Job.start, hq', hbq', Job.orStop]
    refine ⟨_, hop _ (Or.inl rfl), hq, ?_⟩
    intro D1 l1
    cases e : D1 (.favourite u) with
    | none =>
      show Right db fs0 c own p _ (.done _) D1
      simp only [Right, intended, e]
    | some d1 =>
      show Right db fs0 c own p _ (Job.readWhole q _) D1
      refine right_whole (hop _ (Or.inl rfl)) hq hs1 ?_ ?_
      · intro D2 d l2 hd
        cases hf : loadFav c d with
        | err x => simp only [Job.orStop, Right, intended, hd, favouritesIn, hf]; rfl
        | panic => simp only [Job.orStop, Right, intended, hd, favouritesIn, hf]; rfl
        | diverge => simp only [Job.orStop, Right, intended, hd, favouritesIn, hf]; rfl
        | ok fav =>
          simp only [Job.orStop]
          refine right_list (hop _ (Or.inr rfl)) hbq (hsees _ (Or.inr rfl)) (by omega) (fun x h => h) (BoardHeader.unmarshal_eq c) ?_ ?_
          · intro D3 d3 l3 hd3
            have h3 := same l3
            rw [hd] at h3
            cases hr : fav.folder.resolve ((slots 256 d3).map (BoardHeader.parse c)) with
            | err x => simp only [Right, intended, h3, favouritesIn, hf, Holding.need, hd3, Res.ok_bind, hr]; rfl
            | panic => simp only [Right, intended, h3, favouritesIn, hf, Holding.need, hd3, Res.ok_bind, hr]; rfl
            | diverge => simp only [Right, intended, h3, favouritesIn, hf, Holding.need, hd3, Res.ok_bind, hr]; rfl
            | ok folder => simp only [Right, intended, h3, favouritesIn, hf, Holding.need, hd3, Res.ok_bind, hr]
          · intro D3 l3 hd3
            have h3 := same l3
            rw [hd] at h3
            simp only [intended, h3, favouritesIn, hf, Holding.need, hd3, Res.ok_bind]
            rfl
      · intro D2 l2 hd
        have := same l2
        rw [hd, e] at this
        cases this
  | readBoards =>
    obtain ⟨q, hq⟩ := path (o := .boardList) rfl
    have hq' : getBoardPath db.home = .ok q := hq
    simp only [Job.start, hq', Job.orStop]
    refine right_list (hop _ rfl) hq (hsees _ rfl) (by omega) (fun x h => h) (BoardHeader.unmarshal_eq c) ?_ ?_
    · intro D' d _ hd
      simp only [Right, intended, Holding.need, hd, Res.ok_bind]
    · intro D' _ hd
      simp only [intended, Holding.need, hd]
      rfl
  | listArticles b =>
    obtain ⟨q, hq⟩ := path (o := .articleIndex b) rfl
    have hq' : getBoardArticlesDirectoryPath db.home b = .ok q := hq
    simp only [Job.start, hq', Job.orStop]
    refine ⟨_, hop _ rfl, hq, fun D1 l1 => ⟨fun h => ?_, fun h => ?_⟩⟩
    · obtain ⟨d1, hd1⟩ := Option.ne_none_iff_exists'.mp h
      refine ⟨_, hop _ rfl, rfl, hsees _ rfl, Or.inr (fun x h => h), ⟨d1, hd1, ReadOk.start 128 d1⟩, ?_⟩
      intro D2 d2 got l2 hd2 hc
      have hc : got.map (padTo 128) = slots 128 d2 := by
        rcases hc with ⟨h, _⟩ | ⟨_, h⟩
        · omega
        · exact h
      simp only [Job.orStop, mapM_pieces (FileHeader.unmarshal_eq c), hc, Right, intended, hd2]
      rfl
    · show intended c D1 _ = _
      simp only [intended, h]
      rfl
  | listTreasure b ds =>
    obtain ⟨q, hq⟩ := path (o := .treasureIndex b ds) rfl
    have hq' : getBoardTreasuresDirectoryPath db.home b ds = .ok q := hq
    simp only [Job.start, hq', Job.orStop]
    refine right_list (hop _ rfl) hq (hsees _ rfl) (by omega) (dvd _ _ (fun x h => h.elim)) (FileHeader.unmarshal_eq c) ?_ ?_
    · intro D' d _ hd
      simp only [Right, intended, Holding.need, hd, Res.ok_bind]
      rfl
    · intro D' _ hd
      simp only [intended, Holding.need, hd]
      rfl
  | readArticle b f =>
    obtain ⟨q, hq⟩ := path (o := .article b f) rfl
    have hq' : getBoardArticleFilePath db.home b f = .ok q := hq
    simp only [Job.start, hq', Job.orStop]
    refine right_whole (hop _ rfl) hq (hsees _ rfl) ?_ ?_
    · intro D' d _ hd
      simp only [Right, intended, Holding.need, hd, Res.ok_bind]
    · intro D' _ hd
      simp only [intended, Holding.need, hd]
      rfl
  | readTreasure b ds f =>
    obtain ⟨q, hq⟩ := path (o := .treasure b ds f) rfl
    have hq' : getBoardTreasureFilePath db.home b ds f = .ok q := hq
    simp only [Job.start, hq', Job.orStop]
    refine right_whole (hop _ rfl) hq (hsees _ rfl) ?_ ?_
    · intro D' d _ hd
      simp only [Right, intended, Holding.need, hd, Res.ok_bind]
    · intro D' _ hd
      simp only [intended, Holding.need, hd]
      rfl
  | addBoard r =>
    obtain ⟨q, hq⟩ := path (o := .boardList) rfl
    have hq' : getBoardPath db.home = .ok q := hq
    simp only [Job.start, hq', Job.orStop]
    refine right_add (hop _ rfl) hq (hsees _ rfl) ?_ ?_ (fun h => h.elim) ⟨rfl, rfl, rfl⟩ (fun _ => rfl)
    · rcases hmine _ rfl with h | ⟨h, h', _⟩
      · exact Or.inl h
      · exact Or.inr ⟨h, h'⟩
    · intro d hd
      show 256 ∣ _
      rw [List.length_append, BoardHeader.marshal_length]
      exact Nat.dvd_add hd ⟨1, rfl⟩
  | createArticle b ow dt t draw fuel =>
    exact right_tries rfl (fun k => hop _ ⟨k, rfl⟩) (fun k => hsees _ ⟨k, rfl⟩) fuel 0 D rfl (fun j h => absurd h (by omega)) (by omega)
  | addRecord b r =>
    obtain ⟨q, hq⟩ := path (o := .articleIndex b) rfl
    have hq' : getBoardArticlesDirectoryPath db.home b = .ok q := hq
    simp only [Job.start, hq', Job.orStop]
    refine right_add (hop _ rfl) hq (hsees _ rfl) ?_ ?_ (fun _ => ⟨0, rfl⟩) ⟨rfl, rfl, rfl⟩ (fun _ => rfl)
    · rcases hmine _ rfl with h | ⟨h, h', _⟩
      · exact Or.inl h
      · exact Or.inr ⟨h, h'⟩
    · intro d hd
      show 128 ∣ _
      rw [List.length_append, FileHeader.marshal_length]
      exact Nat.dvd_add hd ⟨1, rfl⟩
  | writeArticle b f x =>
    obtain ⟨q, hq⟩ := path (o := .article b f) rfl
    have hq' : getBoardArticleFilePath db.home b f = .ok q := hq
    have hown : own (.article b f) = some p := by
      rcases hmine _ rfl with h | ⟨_, _, h⟩
      · exact h
      · exact absurd rfl (h b f x)
    simp only [Job.start, hq', Job.orStop]
    have key : ∀ D1 : Holding, D1 (.article b f) ≠ none →
        Right db fs0 c own p (.writeArticle b f x) (.put (at_ db (.article b f)) x (.done (.ok .done))) D1 := by
      intro D1 h1
      refine ⟨_, _, hop _ rfl, rfl, rfl, ?_⟩
      intro D2 l2
      obtain ⟨d1, hd1⟩ := Option.ne_none_iff_exists'.mp h1
      obtain ⟨d2, hd2⟩ := later_some l2 (hsees _ rfl) hd1
      refine ⟨d2, hd2, hown, ?_⟩
      simp only [intended, hd2]
      simp [writeAt, zeros]
    exact ⟨_, hop _ rfl, hq, fun D1 l1 => ⟨fun h => key D1 h, fun h => ⟨fun r e => (by cases e), ⟨rfl, rfl, rfl⟩, Or.inl hown,
      key _ (by rw [put_self]; simp)⟩⟩⟩
  | appendArticle b f x =>
    obtain ⟨q, hq⟩ := path (o := .article b f) rfl
    have hq' : getBoardArticleFilePath db.home b f = .ok q := hq
    simp only [Job.start, hq', Job.orStop]
    refine ⟨_, hop _ rfl, hq, fun D1 l1 => ⟨fun h => ?_, fun h => ?_⟩⟩
    · refine ⟨_, _, hop _ rfl, rfl, rfl, ?_⟩
      intro D2 l2
      obtain ⟨d1, hd1⟩ := Option.ne_none_iff_exists'.mp h
      obtain ⟨d2, hd2⟩ := later_some l2 (hsees _ rfl) hd1
      refine ⟨d2, hd2, ?_, by simp only [intended, hd2]⟩
      rcases hmine _ rfl with h | ⟨h, _, _⟩
      · exact Or.inl h
      · exact Or.inr ⟨h, Or.inr ⟨trivial, trivial, x, rfl⟩⟩
    · show intended c D1 _ = _
      simp only [intended, h]
  | readDraft u d =>
    obtain ⟨q, hq⟩ := path (o := .draft u d) rfl
    have hq' : getUserDraftPath db.home u d = .ok q := hq
    have same : ∀ {D' D'' : Holding}, Later own p D' D'' → D'' (.draft u d) = D' (.draft u d) :=
      fun l => (l.grown (hsees _ rfl)).const (fun h => h.elim)
    simp only [Job.start, hq', Job.orStop]
    refine ⟨_, hop _ rfl, hq, ?_⟩
    intro D1 l1
    cases e : D1 (.draft u d) with
    | none =>
      show intended c D1 _ = _
      simp only [intended, e]
      rfl
    | some d1 =>
      refine right_whole (hop _ rfl) hq (hsees _ rfl) ?_ ?_
      · intro D2 d2 _ hd
        simp only [Right, intended, hd]
        rfl
      · intro D2 l2 hd
        have := same l2
        rw [hd, e] at this
        cases this
  | deleteDraft u d =>
    obtain ⟨q, hq⟩ := path (o := .draft u d) rfl
    have hq' : getUserDraftPath db.home u d = .ok q := hq
    have hown : own (.draft u d) = some p := by
      rcases hmine _ rfl with h | ⟨_, h, _⟩
      · exact h
      · cases e : D (.draft u d) <;> rw [e] at h <;> exact h.elim
    simp only [Job.start, hq', Job.orStop]
    refine ⟨_, _, _, hop _ rfl, hq, hown, rfl, rfl, fun D1 l1 => ⟨fun h => ?_, fun h => ?_⟩⟩
    · obtain ⟨d1, hd1⟩ := Option.ne_none_iff_exists'.mp h
      simp only [intended, hd1]
    · simp only [intended, h]
  | writeDraft u d x =>
    obtain ⟨q, hq⟩ := path (o := .draft u d) rfl
    have hq' : getUserDraftPath db.home u d = .ok q := hq
    have hown : own (.draft u d) = some p := by
      rcases hmine _ rfl with h | ⟨_, h, _⟩
      · exact h
      · cases e : D (.draft u d) <;> rw [e] at h <;> exact h.elim
    simp only [Job.start, hq', Job.orStop]
    refine ⟨_, hop _ rfl, hq, hown, fun r e => (by cases e), fun b => ⟨rfl, rfl⟩, ?_⟩
    intro D1 l1
    refine ⟨_, _, hop _ rfl, rfl, rfl, ?_⟩
    intro D2 l2
    refine ⟨[], by rw [(l2 _).2 hown, put_self], hown, ?_⟩
    simp [intended, writeAt, zeros]

end Start


/-! ## What is open for writing does not show in the answers -/

theorem alike_intended (c : Codec) (op : Call) (D m : Holding)
    (h : ∀ o, touches op o → D o = m o ∨ Unseen o (D o) (m o) op ∨ ∃ b, o = .articleIndex b ∧ D o = some [] ∧ m o = none) :
    (intended c D op).2 = (intended c m op).2 ∧
    ∀ o, (intended c D op).1 o = (intended c m op).1 o ∨
      (¬ Unseen o (D o) (m o) op ∧ (intended c D op).1 o = D o ∧ (intended c m op).1 o = m o) := by
  have same : ∀ {o : Obj}, touches op o → (∀ a b, ¬ Unseen o a b op) → (∀ b, o ≠ .articleIndex b) → D o = m o := by
    intro o ho h1 h2
    rcases h o ho with e | e | ⟨b, e, _⟩
    · exact e
    · exact absurd e (h1 _ _)
    · exact absurd e (h2 b)
  have add : ∀ (o o' : Obj) (x y : Option Bytes), x = y → (o' ≠ o → ¬ Unseen o' (D o') (m o') op) →
      D.put o x o' = m.put o y o' ∨ (¬ Unseen o' (D o') (m o') op ∧ D.put o x o' = D o' ∧ m.put o y o' = m o') := by
    intro o o' x y e hn
    subst e
    by_cases ho : o' = o
    · subst ho
      rw [put_self, put_self]
      exact Or.inl rfl
    · rw [put_other _ _ ho, put_other _ _ ho]
      exact Or.inr ⟨hn ho, rfl, rfl⟩
  cases op with
  | readUsers =>
    have e := same (o := .passwd) rfl (fun _ _ => id) (fun _ e => by cases e)
    simp only [intended, Holding.need, e]
    exact ⟨trivial, fun o => Or.inr ⟨id, trivial, trivial⟩⟩
  | readFavourites u =>
    have e := same (o := .favourite u) (Or.inl rfl) (fun _ _ => id) (fun _ e => by cases e)
    have e' := same (o := .boardList) (Or.inr rfl) (fun _ _ => id) (fun _ e => by cases e)
    simp only [intended, favouritesIn, Holding.need, e, e']
    exact ⟨trivial, fun o => Or.inr ⟨id, trivial, trivial⟩⟩
  | readBoards =>
    have e := same (o := .boardList) rfl (fun _ _ => id) (fun _ e => by cases e)
    simp only [intended, Holding.need, e]
    exact ⟨trivial, fun o => Or.inr ⟨id, trivial, trivial⟩⟩
  | listArticles b =>
    have e : (D (.articleIndex b)).getD [] = (m (.articleIndex b)).getD [] := by
      rcases h _ rfl with e | e | ⟨_, _, e1, e2⟩
      · rw [e]
      · exact e.elim
      · rw [e1, e2]; rfl
    simp only [intended, e]
    exact ⟨trivial, fun o => Or.inr ⟨id, trivial, trivial⟩⟩
  | listTreasure b ds =>
    have e := same (o := .treasureIndex b ds) rfl (fun _ _ => id) (fun _ e => by cases e)
    simp only [intended, Holding.need, e]
    exact ⟨trivial, fun o => Or.inr ⟨id, trivial, trivial⟩⟩
  | readArticle b f =>
    have e := same (o := .article b f) rfl (fun _ _ => id) (fun _ e => by cases e)
    simp only [intended, Holding.need, e]
    exact ⟨trivial, fun o => Or.inr ⟨id, trivial, trivial⟩⟩
  | readTreasure b ds f =>
    have e := same (o := .treasure b ds f) rfl (fun _ _ => id) (fun _ e => by cases e)
    simp only [intended, Holding.need, e]
    exact ⟨trivial, fun o => Or.inr ⟨id, trivial, trivial⟩⟩
  | addBoard r =>
    have e : (D .boardList).getD [] = (m .boardList).getD [] := by
      rcases h _ rfl with e | ⟨_, e1, e2⟩ | ⟨_, e, _⟩
      · rw [e]
      · rw [e1, e2]; rfl
      · cases e
    simp only [intended, e]
    exact ⟨trivial, fun o => add _ o _ _ rfl (fun ho h => ho h.1)⟩
  | createArticle b ow dt t draw fuel =>
    have e : ∀ n k, freeName D b draw n k = freeName m b draw n k := by
      intro n
      induction n with
      | zero => intro k; rfl
      | succ n ih =>
        intro k
        simp only [freeName]
        rw [same (o := .article b (DB.articleName (draw k).1 (draw k).2)) ⟨k, rfl⟩ (fun _ _ => id) (fun _ e => by cases e), ih]
    simp only [intended, e]
    cases freeName m b draw fuel 0 with
    | none => exact ⟨rfl, fun o => Or.inr ⟨id, rfl, rfl⟩⟩
    | some name => exact ⟨rfl, fun o => add _ o _ _ rfl (fun _ => id)⟩
  | addRecord b r =>
    have e : (D (.articleIndex b)).getD [] = (m (.articleIndex b)).getD [] := by
      rcases h _ rfl with e | ⟨_, e1, e2⟩ | ⟨_, _, e1, e2⟩
      · rw [e]
      · rw [e1, e2]; rfl
      · rw [e1, e2]; rfl
    simp only [intended, e]
    exact ⟨trivial, fun o => add _ o _ _ rfl (fun ho h => ho h.1)⟩
  | writeArticle b f x =>
    have e : (D (.article b f)).getD [] = (m (.article b f)).getD [] := by
      rcases h _ rfl with e | ⟨_, e1, e2⟩ | ⟨_, e, _⟩
      · rw [e]
      · rw [e1, e2]; rfl
      · cases e
    simp only [intended, e]
    exact ⟨trivial, fun o => add _ o _ _ rfl (fun ho h => ho h.1)⟩
  | appendArticle b f x =>
    have e := same (o := .article b f) rfl (fun _ _ => id) (fun _ e => by cases e)
    simp only [intended, e]
    cases m (.article b f) with
    | none => exact ⟨rfl, fun o => Or.inr ⟨id, rfl, rfl⟩⟩
    | some y => exact ⟨rfl, fun o => add _ o _ _ rfl (fun _ => id)⟩
  | readDraft u d =>
    have e := same (o := .draft u d) rfl (fun _ _ => id) (fun _ e => by cases e)
    simp only [intended, e]
    exact ⟨trivial, fun o => Or.inr ⟨id, trivial, trivial⟩⟩
  | deleteDraft u d =>
    have e := same (o := .draft u d) rfl (fun _ _ => id) (fun _ e => by cases e)
    simp only [intended, e]
    cases m (.draft u d) with
    | none => exact ⟨rfl, fun o => Or.inr ⟨id, rfl, rfl⟩⟩
    | some y => exact ⟨rfl, fun o => add _ o _ _ rfl (fun _ => id)⟩
  | writeDraft u d x =>
    simp only [intended]
    exact ⟨trivial, fun o => add _ o _ _ rfl (fun ho h => ho h.1)⟩

/-! ## All clients together -/

/-- Where the disk and the ideal database differ, a client has opened a file and not yet written to it. -/
def Gap (own : Obj → Option Nat) (D : Holding) (i : Ideal) : Prop :=
  ∀ o, D o = i.hold o ∨ ∃ p op, i.status p = .called op ∧ Unseen o (D o) (i.hold o) op ∧ (own o = some p ∨ ∃ b, o = .articleIndex b)

theorem unseen_index {b : Bytes} {x y : Option Bytes} {op : Call} (h : Unseen (.articleIndex b) x y op) : x = some [] ∧ y = none := by
  cases op with
  | addBoard r => cases h.1
  | addRecord b' r => exact h.2
  | writeArticle b' f t => cases h.1
  | writeDraft u d t => cases h.1
  | _ => exact h.elim

theorem gap_point {c : Codec} {own : Obj → Option Nat} {D D' : Holding} {i : Ideal} (hg : Gap own D i) {p : Nat} {op : Call} {r : Res Answer}
    (hst : i.status p = .called op) (hsees : ∀ o, touches op o → Sees own p o) (hi : intended c D op = (D', r)) :
    (intended c i.hold op).2 = r ∧ Gap own D' (i.setStatus (intended c i.hold op).1 p (.decided (intended c i.hold op).2)) := by
  have key := alike_intended c op D i.hold (by
    intro o ho
    rcases hg o with e | ⟨p', op', h1, h2, h3 | ⟨b, h3⟩⟩
    · exact Or.inl e
    · have := hsees o ho p' h3
      subst this
      rw [hst] at h1
      cases h1
      exact Or.inr (Or.inl h2)
    · subst h3
      exact Or.inr (Or.inr ⟨b, rfl, unseen_index h2⟩))
  rw [hi] at key
  obtain ⟨k1, k2⟩ := key
  refine ⟨k1.symm, ?_⟩
  intro o
  rcases k2 o with e | ⟨e1, e2, e3⟩
  · exact Or.inl e
  · have e2 : D' o = D o := e2
    show D' o = (intended c i.hold op).1 o ∨ _
    rw [e2, e3]
    rcases hg o with e | ⟨p', op', h1, h2, h3⟩
    · exact Or.inl e
    · refine Or.inr ⟨p', op', ?_, ?_, h3⟩
      · have : p' ≠ p := by
          rintro rfl
          rw [hst] at h1
          cases h1
          exact e1 h2
        show (if p' = p then _ else i.status p') = _
        rw [if_neg this, h1]
      · show Unseen o (D o) ((intended c i.hold op).1 o) op'
        rw [e3]
        exact h2

theorem mine_later {own : Obj → Option Nat} {p q : Nat} {D D' : Holding} (h : D' = D ∨ ∃ o x, D' = D.put o x ∧ Mine own p o (D o) x)
    (hq : q ≠ p) : Later own q D D' := by
  rcases h with rfl | ⟨o, x, rfl, hm⟩
  · exact Later.refl _ _ _
  · intro o'
    by_cases e : o' = o
    · subst e
      rw [put_self]
      rcases hm with h | ⟨h, h'⟩
      · rw [h]
        exact ⟨fun e => (by cases e), fun e => absurd (Option.some.inj e).symm hq⟩
      · rw [h]
        exact ⟨fun _ => h', fun e => by cases e⟩
    · rw [put_other _ _ e]
      exact ⟨fun _ => Grown.refl _ _, fun _ => rfl⟩

theorem mine_grown {own : Obj → Option Nat} {p : Nat} {D D' : Holding} (h : D' = D ∨ ∃ o x, D' = D.put o x ∧ Mine own p o (D o) x)
    (o : Obj) (ho : own o = none) : Grown o (D o) (D' o) := ((mine_later h (Nat.succ_ne_self p)) o).1 ho

structure Inv (db : DB) (fs0 : FS) (c : Codec) (own : Obj → Option Nat) (ops : Nat → List Call) (s : Site) (D : Holding) (i : Ideal) : Prop where
  holds : Shows db fs0 s.fs D
  since : ∀ o, own o = none → Grown o (holdings db fs0 o) (D o)
  gap : Gap own D i
  clients : ∀ p, ((s.clients p).now = none ∧ i.status p = .idle) ∨
    (∃ j op, (s.clients p).now = some j ∧ i.status p = .called op ∧ op ∈ ops p ∧ (∀ r, j ≠ .done r) ∧ Right db fs0 c own p op j D) ∨
    ∃ r, (s.clients p).now = some (.done r) ∧ i.status p = .decided r
  todo : ∀ p, ∀ op ∈ (s.clients p).todo, op ∈ ops p

theorem Spec.Ideal.Run.append {c : Codec} {s t u : Ideal} {xs ys : List Mark} (h : Ideal.Run c s xs t) (h' : Ideal.Run c t ys u) :
    Ideal.Run c s (xs ++ ys) u := by
  induction h with
  | nil => exact h'
  | cons hm _ ih => exact .cons hm (ih h')

section Together

variable {db : DB} {fs0 : FS} {c : Codec} {own : Obj → Option Nat} {ops : Nat → List Call}

theorem setStatus_setStatus (i : Ideal) (m m' : Holding) (p : Nat) (x y : Status) :
    (i.setStatus m p x).setStatus m' p y = i.setStatus m' p y := by
  unfold Ideal.setStatus
  congr 1
  funext q
  dsimp only
  split <;> rfl

theorem setStatus_self (i : Ideal) (m : Holding) (p : Nat) (x : Status) : (i.setStatus m p x).status p = x := by
  simp [Ideal.setStatus]

theorem setStatus_other (i : Ideal) (m : Holding) {p q : Nat} (x : Status) (h : q ≠ p) : (i.setStatus m p x).status q = i.status q := by
  simp [Ideal.setStatus, h]

theorem setClient_self (s : Site) (fs : FS) (p : Nat) (x : Client) : (s.setClient fs p x).clients p = x := by
  simp [Site.setClient]

theorem setClient_other (s : Site) (fs : FS) {p q : Nat} (x : Client) (h : q ≠ p) : (s.setClient fs p x).clients q = s.clients q := by
  simp [Site.setClient, h]

/-- The other clients stay as they are when `p` makes a change. -/
theorem inv_clients {s : Site} {D D' : Holding} {i i' : Ideal} (h : Inv db fs0 c own ops s D i) {p : Nat} {fs' : FS} {x : Client}
    (hD : D' = D ∨ ∃ o x, D' = D.put o x ∧ Mine own p o (D o) x) (hi : ∀ q, q ≠ p → i'.status q = i.status q)
    (hp : (x.now = none ∧ i'.status p = .idle) ∨
      (∃ j op, x.now = some j ∧ i'.status p = .called op ∧ op ∈ ops p ∧ (∀ r, j ≠ .done r) ∧ Right db fs0 c own p op j D') ∨
      ∃ r, x.now = some (.done r) ∧ i'.status p = .decided r) (q : Nat) :
    (((s.setClient fs' p x).clients q).now = none ∧ i'.status q = .idle) ∨
    (∃ j op, ((s.setClient fs' p x).clients q).now = some j ∧ i'.status q = .called op ∧ op ∈ ops q ∧ (∀ r, j ≠ .done r) ∧
      Right db fs0 c own q op j D') ∨
    ∃ r, ((s.setClient fs' p x).clients q).now = some (.done r) ∧ i'.status q = .decided r := by
  by_cases e : q = p
  · subst e
    rw [setClient_self]
    exact hp
  · rw [setClient_other _ _ _ e, hi q e]
    rcases h.clients q with h1 | ⟨j, op, h1, h2, h3, h4, h5⟩ | h1
    · exact Or.inl h1
    · exact Or.inr (Or.inl ⟨j, op, h1, h2, h3, h4, h5.later h4 (mine_later hD e)⟩)
    · exact Or.inr (Or.inr h1)

theorem inv_todo {s : Site} {D : Holding} {i : Ideal} (h : Inv db fs0 c own ops s D i) {p : Nat} {fs' : FS} {x : Client}
    (hx : ∀ op ∈ x.todo, op ∈ (s.clients p).todo) : ∀ q, ∀ op ∈ ((s.setClient fs' p x).clients q).todo, op ∈ ops q := by
  intro q op hop
  by_cases e : q = p
  · subst e
    rw [setClient_self] at hop
    exact h.todo q op (hx op hop)
  · rw [setClient_other _ _ _ e] at hop
    exact h.todo q op hop

theorem gap_status {D : Holding} {i : Ideal} (h : Gap own D i) {p : Nat} {x : Status} (hx : ∀ op, i.status p ≠ .called op) :
    Gap own D (i.setStatus i.hold p x) := by
  intro o
  rcases h o with e | ⟨p', op', h1, h2, h3⟩
  · exact Or.inl e
  · refine Or.inr ⟨p', op', ?_, h2, h3⟩
    rw [setStatus_other _ _ _ (by rintro rfl; exact hx op' h1)]
    exact h1

variable (hplace : ∀ p, ∀ op ∈ ops p, ∀ o, touches op o → Placed db fs0 o) (hsees : ∀ p, ∀ op ∈ ops p, ∀ o, touches op o → Sees own p o)
  (hmine : ∀ p, ∀ op ∈ ops p, ∀ o, changes op o → own o = some p ∨
    (own o = none ∧ Shared o (holdings db fs0 o) ∧ ∀ b f x, op ≠ .writeArticle b f x))

include hplace hsees hmine

theorem inv_step {s : Site} {D : Holding} {i : Ideal} (h : Inv db fs0 c own ops s D i) (p n : Nat) :
    ∃ marks D' i', Ideal.Run c i marks i' ∧ marks.filterMap Mark.seen = (s.step db c p n).2 ∧ Inv db fs0 c own ops (s.step db c p n).1 D' i' := by
  have hc := h.clients p
  cases hcl : s.clients p with
  | mk todo now =>
  rw [hcl] at hc
  cases now with
  | none =>
    have hidle : i.status p = .idle := by
      rcases hc with ⟨_, h1⟩ | ⟨_, _, h1, _⟩ | ⟨_, h1, _⟩
      · exact h1
      · cases h1
      · cases h1
    cases todo with
    | nil =>
      have e : s.step db c p n = (s, []) := by simp only [Site.step, hcl]
      rw [e]
      exact ⟨[], D, i, .nil, rfl, h⟩
    | cons op rest =>
      have e : s.step db c p n = (s.setClient s.fs p ⟨rest, some (Job.start db c op)⟩, [.call p op]) := by simp only [Site.step, hcl]
      rw [e]
      have hop : op ∈ ops p := h.todo p op (by rw [hcl]; simp)
      have hR : Right db fs0 c own p op (Job.start db c op) D := by
        refine right_start (hplace p op hop) (hsees p op hop) ?_
        intro o ho
        rcases hmine p op hop o ho with h1 | ⟨h1, h2, h3⟩
        · exact Or.inl h1
        · exact Or.inr ⟨h1, (h.since o h1).shared h2, h3⟩
      have hcall : Ideal.Move c i (.event (.call p op)) (i.setStatus i.hold p (.called op)) := .call hidle
      have hg1 : Gap own D (i.setStatus i.hold p (.called op)) := gap_status h.gap (fun op e => by rw [hidle] at e; cases e)
      by_cases hd : ∃ r, Job.start db c op = .done r
      · obtain ⟨r, hr⟩ := hd
        rw [hr] at hR
        obtain ⟨k1, k2⟩ := gap_point (c := c) hg1 (setStatus_self _ _ _ _) (hsees p op hop) hR
        refine ⟨[.event (.call p op), .point p], D, _, .cons hcall (.cons (.point (setStatus_self _ _ _ _)) .nil), rfl, h.holds, h.since, k2,
          inv_clients h (Or.inl rfl) ?_ (Or.inr (Or.inr ⟨r, by rw [hr], ?_⟩)), inv_todo h ?_⟩
        · intro q hq
          rw [setStatus_other _ _ _ hq, setStatus_other _ _ _ hq]
        · rw [setStatus_self, k1]
        · intro op' h'; rw [hcl]; simp [h']
      · refine ⟨[.event (.call p op)], D, _, .cons hcall .nil, rfl, h.holds, h.since, hg1,
          inv_clients h (Or.inl rfl) (fun q hq => setStatus_other _ _ _ hq)
            (Or.inr (Or.inl ⟨_, op, rfl, setStatus_self _ _ _ _, hop, fun r e => hd ⟨r, e⟩, hR⟩)), inv_todo h ?_⟩
        intro op' h'; rw [hcl]; simp [h']
  | some j =>
    by_cases hd : ∃ r, j = .done r
    · obtain ⟨r, rfl⟩ := hd
      have e : s.step db c p n = (s.setClient s.fs p ⟨todo, none⟩, [.ret p r]) := by simp only [Site.step, hcl]
      rw [e]
      have hst : i.status p = .decided r := by
        rcases hc with ⟨h1, _⟩ | ⟨j, _, h1, _, _, h2, _⟩ | ⟨r', h1, h2⟩
        · cases h1
        · cases h1; exact absurd rfl (h2 r)
        · cases h1; exact h2
      refine ⟨[.event (.ret p r)], D, _, .cons (.ret hst) .nil, rfl, h.holds, h.since, gap_status h.gap (fun op e => by rw [hst] at e; cases e),
        inv_clients h (Or.inl rfl) (fun q hq => setStatus_other _ _ _ hq) (Or.inl ⟨rfl, setStatus_self _ _ _ _⟩), inv_todo h ?_⟩
      intro op' h'; rw [hcl]; exact h'
    · have hnd : ∀ r, j ≠ .done r := fun r e => hd ⟨r, e⟩
      have e : s.step db c p n = (s.setClient (j.step db.cwd s.fs n).1 p ⟨todo, some (j.step db.cwd s.fs n).2⟩, []) := by
        cases j with
        | done r => exact absurd rfl (hnd r)
        | _ => simp only [Site.step, hcl]
      rw [e]
      obtain ⟨op, hst, hop, hR⟩ : ∃ op, i.status p = .called op ∧ op ∈ ops p ∧ Right db fs0 c own p op j D := by
        rcases hc with ⟨h1, _⟩ | ⟨j', op, h1, h2, h3, _, h5⟩ | ⟨r', h1, h2⟩
        · cases h1
        · cases h1; exact ⟨op, h2, h3, h5⟩
        · cases h1; exact absurd rfl (hnd r')
      obtain ⟨D', g1, g2, g3⟩ := job_step h.holds hR hnd n
      have since : ∀ o, own o = none → Grown o (holdings db fs0 o) (D' o) := fun o ho => (h.since o ho).trans (mine_grown g2 o ho)
      have todo' : ∀ op' ∈ todo, op' ∈ (s.clients p).todo := by intro op' h'; rw [hcl]; exact h'
      rcases g3 with ⟨k1, k2, k3⟩ | ⟨r, k1, k2⟩
      · refine ⟨[], D', i, .nil, rfl, g1, since, ?_,
          inv_clients h g2 (fun _ _ => rfl) (Or.inr (Or.inl ⟨_, op, rfl, hst, hop, k1, k2⟩)), inv_todo h todo'⟩
        rcases k3 with rfl | ⟨o, rfl, hm, hu⟩
        · exact h.gap
        · intro o'
          by_cases eo : o' = o
          · subst eo
            rw [put_self]
            refine Or.inr ⟨p, op, hst, ?_, ?_⟩
            · rcases hu with ⟨hn, hu⟩ | ⟨_, hu⟩
              · have hold : i.hold o' = none := by
                  rcases h.gap o' with e | ⟨p', op', q1, q2, _⟩
                  · rw [← e, hn]
                  · rw [hn] at q2
                    cases op' <;> simp [Unseen] at q2
                rw [hold]
                exact hu
              · exact hu _
            · rcases hm with hm | ⟨hm, hm'⟩
              · exact Or.inl hm
              · right
                rcases hu with ⟨hn, hu⟩ | ⟨hu, _⟩
                · rw [hn] at hm'
                  rcases hm' with e | ⟨e1, _, _⟩
                  · cases e
                  · cases op with
                    | addBoard r => rw [hu.1] at e1; exact e1.elim
                    | addRecord b r => exact ⟨b, hu.1⟩
                    | writeArticle b f x =>
                      rcases hmine p _ hop (.article b f) rfl with q | ⟨_, _, q⟩
                      · rw [hu.1, q] at hm; cases hm
                      · exact absurd rfl (q b f x)
                    | writeDraft u d x => rw [hu.1] at e1; exact e1.elim
                    | _ => exact hu.elim
                · rw [hu] at hm; cases hm
          · rw [put_other _ _ eo]
            exact h.gap o'
      · obtain ⟨q1, q2⟩ := gap_point (c := c) h.gap hst (hsees p op hop) k2
        refine ⟨[.point p], D', _, .cons (.point hst) .nil, rfl, g1, since, q2,
          inv_clients h g2 (fun q hq => setStatus_other _ _ _ hq) (Or.inr (Or.inr ⟨r, by rw [k1], ?_⟩)), inv_todo h todo'⟩
        rw [setStatus_self, q1]

theorem inv_run {s : Site} {D : Holding} {i : Ideal} (h : Inv db fs0 c own ops s D i) (sched : List (Nat × Nat)) :
    ∃ marks D' i', Ideal.Run c i marks i' ∧ marks.filterMap Mark.seen = (s.run db c sched).2 ∧ Inv db fs0 c own ops (s.run db c sched).1 D' i' := by
  induction sched generalizing s D i with
  | nil => exact ⟨[], D, i, .nil, rfl, h⟩
  | cons x sched ih =>
    obtain ⟨p, n⟩ := x
    obtain ⟨m1, D1, i1, a1, a2, a3⟩ := inv_step hplace hsees hmine h p n
    obtain ⟨m2, D2, i2, b1, b2, b3⟩ := ih a3
    refine ⟨m1 ++ m2, D2, i2, a1.append b1, ?_, b3⟩
    rw [List.filterMap_append, a2, b2]
    rfl

end Together

end Verif
