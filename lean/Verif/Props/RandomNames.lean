import Verif.Model.RandomNames
import Verif.Props.Factory
/-!
# C153: names of articles that nobody can foretell
-/

namespace Verif
open Spec

namespace Spec

/-- The system makes a new file of this name on the board. -/
def CanMake (db : DB) (fs : FS) (board name : Bytes) : Prop := ∃ fs', fs.createExcl db.cwd (boardDir db.home board ++ slash :: name) = .ok fs'

/-- The full claim of C153: whatever name is guessed beforehand, the article gets another one for some state of the generator (which only the
process knows), provided that the generator gives different numbers in different states. -/
def Unforeseen (make : DB → Draws → FS → Args → Int → Nat → Source → Res (FileHeader × FS × Source)) : Prop :=
  ∀ (db : DB) (d : Draws) (fs : FS) (args : Args) (clock : Int) (fuel : Nat) (guess : Bytes),
    (∃ s s' : Source, d s.seed s.taken ≠ d s'.seed s'.taken) →
    ∃ s, ∀ r fs' s', make db d fs args clock fuel s = .ok (r, fs', s') → r.filename ≠ guess

end Spec

/-! ## The generator and the models without it -/

theorem claimNameFrom_eq (db : DB) (d : Draws) (fs : FS) (board : Bytes) (clock seed : Int) (fuel k : Nat) :
    (db.claimNameFrom d fs board clock fuel ⟨seed, k⟩ >>= fun x => .ok (x.1, x.2.1, x.2.2.1)) =
      db.claimName fs board clock (d seed) fuel k := by
  induction fuel generalizing k with
  | zero => rfl
  | succ f ih =>
    simp only [DB.claimNameFrom, DB.claimName, Source.next]
    cases hp : getBoardArticleFilePath db.home board (DB.articleName clock (d seed k)) with
    | ok p =>
      simp only [Res.ok_bind]
      cases hc : fs.createExcl db.cwd p with
      | ok fs' => rfl
      | err e => exact ih (k + 1)
      | panic => exact ih (k + 1)
      | diverge => exact ih (k + 1)
    | err e => rfl
    | panic => rfl
    | diverge => rfl

theorem createNameFrom_eq (db : DB) (d : Draws) (fs : FS) (board : Bytes) (clock : Nat → Int) (s : Source) (fuel k : Nat) :
    (db.createNameFrom d fs board clock fuel k ⟨s.seed, s.taken + k⟩ >>= fun x => .ok (x.1, x.2.1)) =
      db.createFilename fs board (fun i => (clock i, d s.seed (s.taken + i))) fuel k := by
  induction fuel generalizing k with
  | zero => rfl
  | succ f ih =>
    simp only [DB.createNameFrom, DB.createFilename, Source.next]
    cases hp : getBoardArticleFilePath db.home board (DB.articleName (clock k) (d s.seed (s.taken + k))) with
    | ok p =>
      simp only [Res.ok_bind]
      cases hc : fs.createExcl db.cwd p with
      | ok fs' => rfl
      | err e => exact ih (k + 1)
      | panic => exact ih (k + 1)
      | diverge => exact ih (k + 1)
    | err e => rfl
    | panic => rfl
    | diverge => rfl

theorem bind_assoc' {α β γ : Type} (x : Res α) (f : α → Res β) (g : β → Res γ) : ((x >>= f) >>= g) = (x >>= fun a => f a >>= g) := by
  cases x <;> rfl

/-- **C153**, the models with and without generator: the numbers of the latter are those of the former, from the state the generator is in, or, with
a map, from the seed of the clock. -/
theorem C153_models (db : DB) (d : Draws) (fs : FS) (fuel : Nat) (s : Source) :
    (∀ board clock, (db.createNameFrom d fs board clock fuel 0 s >>= fun x => .ok (x.1, x.2.1)) =
      db.createFilename fs board (fun i => (clock i, d s.seed (s.taken + i))) fuel 0) ∧
    (∀ args clock, (db.mapArticleFrom d fs args clock fuel s >>= fun x => .ok (x.1, x.2.1)) =
      db.newArticleWithMap fs args clock (d clock) fuel) := by
  refine ⟨fun board clock => createNameFrom_eq db d fs board clock s fuel 0, fun args clock => ?_⟩
  unfold DB.mapArticleFrom DB.newArticleWithMap
  simp only [bind_assoc']
  congr 1; funext owner
  congr 1; funext date
  congr 1; funext title
  congr 1; funext board
  rw [← claimNameFrom_eq db d fs board clock clock fuel 0]
  simp only [bind_assoc']
  rfl

/-! ## With a map -/

/-- **C153, what happens**: with a map the name, the disk and even the generator afterwards are the same whatever state the generator was in. -/
theorem C153_foretold (db : DB) (d : Draws) (fs : FS) (args : Args) (clock : Int) (fuel : Nat) (s s' : Source) :
    db.mapArticleFrom d fs args clock fuel s = db.mapArticleFrom d fs args clock fuel s' := rfl

theorem claimNameFrom_ok {db : DB} {d : Draws} {fs fs' : FS} {board name p : Bytes} {clock seed : Int} {fuel k : Nat} {s' : Source}
    (hb : board ≠ []) (h : db.claimNameFrom d fs board clock fuel ⟨seed, k⟩ = .ok (name, p, fs', s')) :
    ∃ j, k ≤ j ∧ name = DB.articleName clock (d seed j) ∧ p = boardDir db.home board ++ slash :: name ∧ fs.createExcl db.cwd p = .ok fs' ∧
      (∀ i, k ≤ i → i < j → ¬ CanMake db fs board (DB.articleName clock (d seed i))) ∧ s' = ⟨seed, j + 1⟩ := by
  induction fuel generalizing k with
  | zero => cases h
  | succ f ih =>
    simp only [DB.claimNameFrom, Source.next] at h
    rw [articlePath_ok hb, Res.ok_bind] at h
    cases hc : fs.createExcl db.cwd (boardDir db.home board ++ slash :: DB.articleName clock (d seed k)) with
    | ok fs1 =>
      rw [hc] at h
      have := Res.ok.inj h
      simp only [Prod.mk.injEq] at this
      obtain ⟨rfl, rfl, rfl, rfl⟩ := this
      exact ⟨k, Nat.le_refl _, rfl, rfl, hc, fun i h1 h2 => absurd h2 (by omega), rfl⟩
    | _ =>
      rw [hc] at h
      obtain ⟨j, h1, h2, h3, h4, h5, h6⟩ := ih h
      refine ⟨j, by omega, h2, h3, h4, fun i h7 h8 => ?_, h6⟩
      by_cases hi : i = k
      · subst hi
        rintro ⟨fs2, h9⟩
        rw [hc] at h9
        cases h9
      · exact h5 i (by omega) h8

theorem canMake_set {db : DB} {fs : FS} {board name : Bytes} {l : Path} {x : Bytes} (hl : fs.get l ≠ some .dir)
    (h : CanMake db (fs.set l (.file x)) board name) : CanMake db fs board name ∧ fs.lookup db.cwd (boardDir db.home board ++ slash :: name) ≠ .ok l := by
  obtain ⟨fs', h⟩ := h
  obtain ⟨l', h1, h2, -⟩ := createExcl_ok h
  have hne : l' ≠ l := by
    rintro rfl
    rw [FS.get_set (FS.ne_root hl), if_pos rfl] at h2
    cases h2
  have h3 : fs.lookup db.cwd (boardDir db.home board ++ slash :: name) = .ok l' := by
    refine FS.lookup_mono (fun y hy => ?_) h1
    rw [FS.get_set (FS.ne_root hl)] at hy
    split at hy
    · cases hy
    · exact hy
  rw [FS.get_set (FS.ne_root hl), if_neg (by first | exact hne | exact Ne.symm hne)] at h2
  refine ⟨⟨fs.set l' (.file []), ?_⟩, fun hc => hne (Res.ok.inj (h3.symm.trans hc))⟩
  unfold FS.createExcl
  rw [h3, Res.ok_bind, h2]

/-- **C153 (exact).** With a map the name is made of the clock and the first number after seeding with the clock whose name is free; afterwards the
name is taken and nothing else has become free. -/
theorem C153_exact (db : DB) (d : Draws) (fs fs' : FS) (args : Args) (clock : Int) (fuel : Nat) (s s' : Source) (r : FileHeader)
    (board : Bytes) (hb : Holds args (ascii "board_id") board) (hne : board ≠ []) (h : db.mapArticleFrom d fs args clock fuel s = .ok (r, fs', s')) :
    ∃ k, r.filename = DB.articleName clock (d clock k) ∧ CanMake db fs board r.filename ∧
      (∀ i, i < k → ¬ CanMake db fs board (DB.articleName clock (d clock i))) ∧ s' = ⟨clock, k + 1⟩ ∧
      ¬ CanMake db fs' board r.filename ∧ ∀ name, CanMake db fs' board name → CanMake db fs board name := by
  unfold DB.mapArticleFrom at h
  obtain ⟨owner, _, h⟩ := Res.bind_eq_ok.mp h
  obtain ⟨date, _, h⟩ := Res.bind_eq_ok.mp h
  obtain ⟨title, _, h⟩ := Res.bind_eq_ok.mp h
  obtain ⟨board', h4, h⟩ := Res.bind_eq_ok.mp h
  have hbb : board' = board := by
    have h4 := need_ok.mp h4
    unfold Holds at h4 hb
    rw [hb] at h4
    injection h4 with h4
    injection h4 with h4
    exact h4.symm
  subst hbb
  obtain ⟨⟨name, p, fs1, s1⟩, h5, h⟩ := Res.bind_eq_ok.mp h
  obtain ⟨fs2, h6, h⟩ := Res.bind_eq_ok.mp h
  have e := Res.ok.inj h
  simp only [Prod.mk.injEq] at e
  obtain ⟨rfl, rfl, rfl⟩ := e
  obtain ⟨k, -, hname, hp, he, hmin, hs⟩ := claimNameFrom_ok hne h5
  obtain ⟨l, hl, hg, rfl⟩ := createExcl_ok he
  have hnd : fs.get l ≠ some .dir := by rw [hg]; simp
  have hl1 : (fs.set l (.file [])).lookup db.cwd p = .ok l := FS.lookup_mono (FS.set_file_dirs hnd) hl
  have hg1 : (fs.set l (.file [])).get l = some (.file []) := by rw [FS.get_set (FS.ne_root hnd), if_pos rfl]
  have hnd1 : (fs.set l (.file [])).get l ≠ some .dir := by rw [hg1]; simp
  have h7 : ∃ x, fs2 = (fs.set l (.file [])).set l (.file x) := by
    unfold FS.overwrite at h6
    rw [FS.openCreate_of hl1 hnd1, Res.ok_bind] at h6
    exact ⟨_, (Res.ok.inj h6).symm⟩
  obtain ⟨x, rfl⟩ := h7
  have back : ∀ n, CanMake db ((fs.set l (.file [])).set l (.file x)) board' n →
      CanMake db fs board' n ∧ fs.lookup db.cwd (boardDir db.home board' ++ slash :: n) ≠ .ok l :=
    fun n hn => canMake_set hnd (canMake_set hnd1 hn).1
  refine ⟨k, hname, ⟨_, hp ▸ he⟩, fun i hi => hmin i (Nat.zero_le _) hi, hs, fun hc => (back _ hc).2 (hp ▸ hl), fun n hn => (back n hn).1⟩

/-- **C153 is false of the code** with a map. -/
theorem C153_refuted : ¬ Unforeseen DB.mapArticleFrom := by
  intro h
  let args : Args := fun k => if k = ascii "board_id" then some (.str (ascii "S")) else some (.str [])
  obtain ⟨s, hs⟩ := h sampleDB (fun seed _ => if seed = 9 then 5 else 6) sampleFS args 9 1 (DB.articleName 9 5) ⟨⟨9, 0⟩, ⟨8, 0⟩, by decide⟩
  rw [C153_foretold _ _ _ _ _ _ s ⟨0, 0⟩] at hs
  have hx : ∃ x, sampleDB.mapArticleFrom (fun seed _ => if seed = 9 then 5 else 6) sampleFS args 9 1 ⟨0, 0⟩ = .ok x ∧
      x.1.filename = DB.articleName 9 5 := by
    refine ⟨_, rfl, ?_⟩
    decide +kernel
  obtain ⟨⟨r, fs', s'⟩, h1, h2⟩ := hx
  exact hs r fs' s' h1 h2

/-- **C153, everywhere the same.** In one second articles get the same name on all boards, disks and machines where the first name is free. -/
theorem C153_same (db db' : DB) (d : Draws) (fs fs1 fs' fs1' : FS) (args args' : Args) (clock : Int) (fuel fuel' : Nat) (s s1 s' s1' : Source)
    (r r' : FileHeader) (board board' : Bytes) (hb : Holds args (ascii "board_id") board) (hb' : Holds args' (ascii "board_id") board')
    (hne : board ≠ []) (hne' : board' ≠ []) (h : db.mapArticleFrom d fs args clock fuel s = .ok (r, fs1, s1))
    (h' : db'.mapArticleFrom d fs' args' clock fuel' s' = .ok (r', fs1', s1')) (hf : CanMake db fs board (DB.articleName clock (d clock 0)))
    (hf' : CanMake db' fs' board' (DB.articleName clock (d clock 0))) : r.filename = r'.filename := by
  obtain ⟨k, e, -, hm, -⟩ := C153_exact db d fs fs1 args clock fuel s s1 r board hb hne h
  obtain ⟨k', e', -, hm', -⟩ := C153_exact db' d fs' fs1' args' clock fuel' s' s1' r' board' hb' hne' h'
  have h0 : k = 0 := Nat.eq_zero_of_not_pos fun hk => hm 0 hk hf
  have h0' : k' = 0 := Nat.eq_zero_of_not_pos fun hk => hm' 0 hk hf'
  rw [e, e', h0, h0']

/-- **C153, one after the other.** Of two articles for one board in one second, with nothing removed in between, the second starts from the same
seed and takes more numbers than the first: article number `n` takes at least `n`. -/
theorem C153_later (db : DB) (d : Draws) (fs fs1 fs2 fs3 : FS) (args args' : Args) (clock : Int) (fuel fuel' : Nat) (s s1 s2 s3 : Source)
    (r r' : FileHeader) (board : Bytes) (hb : Holds args (ascii "board_id") board) (hb' : Holds args' (ascii "board_id") board) (hne : board ≠ [])
    (h : db.mapArticleFrom d fs args clock fuel s = .ok (r, fs1, s1)) (hk : ∀ name, CanMake db fs2 board name → CanMake db fs1 board name)
    (h' : db.mapArticleFrom d fs2 args' clock fuel' s2 = .ok (r', fs3, s3)) : s1.taken < s3.taken := by
  obtain ⟨k, e, -, hm, hs, hown, hold⟩ := C153_exact db d fs fs1 args clock fuel s s1 r board hb hne h
  obtain ⟨k', e', hc', -, hs', -⟩ := C153_exact db d fs2 fs3 args' clock fuel' s2 s3 r' board hb' hne h'
  rw [hs, hs']
  have : ¬ k' ≤ k := by
    intro hle
    have h1 := hk _ hc'
    rw [e'] at h1
    by_cases hkk : k' = k
    · rw [hkk, ← e] at h1
      exact hown h1
    · exact hm k' (by omega) (hold _ h1)
  show k + 1 < k' + 1
  omega

/-! ## Without a map -/

/-- **C153, the seed stays.** After an article with a map, articles made without one in the same process can be foretold too: their numbers are
those that follow, after seeding with the time of the first. -/
theorem C153_after (db db' : DB) (d : Draws) (fs fs1 fs2 : FS) (args : Args) (clock : Int) (fuel fuel' : Nat) (s s1 : Source) (r : FileHeader)
    (board board' : Bytes) (clock' : Nat → Int) (hb : Holds args (ascii "board_id") board) (hne : board ≠ [])
    (h : db.mapArticleFrom d fs args clock fuel s = .ok (r, fs1, s1)) :
    ∃ k, r.filename = DB.articleName clock (d clock k) ∧
      (db'.createNameFrom d fs2 board' clock' fuel' 0 s1 >>= fun x => .ok (x.1, x.2.1)) =
        db'.createFilename fs2 board' (fun i => (clock' i, d clock (k + 1 + i))) fuel' 0 := by
  obtain ⟨k, e, -, -, rfl, -⟩ := C153_exact db d fs fs1 args clock fuel s s1 r board hb hne h
  exact ⟨k, e, (C153_models db' d fs2 fuel' _).1 board' clock'⟩

theorem articleName_rand {t : Int} {a b : Fin 4096} (h : DB.articleName t a = DB.articleName t b) : a = b :=
  hex3_injective (List.append_cancel_left h)

/-- **C153** (partial: without a map). Whatever name is guessed, a generator that may be in two states with different numbers may make another name, if
both names are free. -/
theorem C153_partial (db : DB) (d : Draws) (fs : FS) (board : Bytes) (hne : board ≠ []) (clock : Nat → Int) (fuel : Nat) (guess : Bytes)
    (s s' : Source) (hd : d s.seed s.taken ≠ d s'.seed s'.taken)
    (hf : CanMake db fs board (DB.articleName (clock 0) (d s.seed s.taken))) (hf' : CanMake db fs board (DB.articleName (clock 0) (d s'.seed s'.taken))) :
    ∃ u name fs' v, (u = s ∨ u = s') ∧ db.createNameFrom d fs board clock (fuel + 1) 0 u = .ok (name, fs', v) ∧ name ≠ guess := by
  have one : ∀ u : Source, CanMake db fs board (DB.articleName (clock 0) (d u.seed u.taken)) →
      ∃ fs' v, db.createNameFrom d fs board clock (fuel + 1) 0 u = .ok (DB.articleName (clock 0) (d u.seed u.taken), fs', v) := by
    rintro u ⟨fs', h⟩
    refine ⟨fs', ⟨u.seed, u.taken + 1⟩, ?_⟩
    simp only [DB.createNameFrom, Source.next]
    rw [articlePath_ok hne, Res.ok_bind, h]
  by_cases hg : DB.articleName (clock 0) (d s.seed s.taken) = guess
  · obtain ⟨fs', v, h⟩ := one s' hf'
    exact ⟨s', _, fs', v, .inr rfl, h, fun hg' => hd (articleName_rand (hg.trans hg'.symm))⟩
  · obtain ⟨fs', v, h⟩ := one s hf
    exact ⟨s, _, fs', v, .inl rfl, h, hg⟩

/-- **C153 (exact, without a map).** The name is that of the first round whose name is free; each round takes one number. -/
theorem C153_without_map (db : DB) (d : Draws) (fs fs' : FS) (board name : Bytes) (clock : Nat → Int) (fuel k : Nat) (s s' : Source) (hb : board ≠ [])
    (h : db.createNameFrom d fs board clock fuel k s = .ok (name, fs', s')) :
    ∃ i, i < fuel ∧ name = DB.articleName (clock (k + i)) (d s.seed (s.taken + i)) ∧ fs.createExcl db.cwd (boardDir db.home board ++ slash :: name) = .ok fs' ∧
      (∀ m, m < i → ¬ CanMake db fs board (DB.articleName (clock (k + m)) (d s.seed (s.taken + m)))) ∧ s' = ⟨s.seed, s.taken + i + 1⟩ := by
  induction fuel generalizing k s with
  | zero => cases h
  | succ f ih =>
    simp only [DB.createNameFrom, Source.next] at h
    rw [articlePath_ok hb, Res.ok_bind] at h
    cases hc : fs.createExcl db.cwd (boardDir db.home board ++ slash :: DB.articleName (clock k) (d s.seed s.taken)) with
    | ok fs1 =>
      rw [hc] at h
      have := Res.ok.inj h
      simp only [Prod.mk.injEq] at this
      obtain ⟨rfl, rfl, rfl⟩ := this
      exact ⟨0, by omega, rfl, hc, fun m hm => absurd hm (by omega), rfl⟩
    | _ =>
      rw [hc] at h
      obtain ⟨i, h1, h2, h3, h4, h5⟩ := ih _ _ h
      refine ⟨i + 1, by omega, ?_, h3, fun m hm => ?_, ?_⟩
      · rw [h2]
        simp only [Nat.add_comm, Nat.add_left_comm]
      · by_cases hz : m = 0
        · subst hz
          rintro ⟨fs2, h9⟩
          rw [Nat.add_zero, Nat.add_zero, hc] at h9
          cases h9
        · obtain ⟨m, rfl⟩ : ∃ m', m = m' + 1 := ⟨m - 1, by omega⟩
          have := h4 m (by omega)
          have e1 : k + 1 + m = k + (m + 1) := by omega
          have e2 : s.taken + 1 + m = s.taken + (m + 1) := by omega
          rw [e1] at this
          simp only [e2] at this
          exact this
      · rw [h5]
        simp only [Nat.add_comm, Nat.add_left_comm]

/-- **C153, processes that start alike.** A toolchain before Go 1.20 starts the generator of every process in one state. Then processes that make their
first article without a map in the same second try the same names: if the clock stands, the second gets a name only after all names of the first. -/
theorem C153_alike (db : DB) (d : Draws) (fs fs1 fs2 : FS) (board name name' : Bytes) (t : Int) (fuel fuel' : Nat) (s s1 s2 : Source)
    (hb : board ≠ []) (h : db.createNameFrom d fs board (fun _ => t) fuel 0 s = .ok (name, fs1, s1))
    (h' : db.createNameFrom d fs1 board (fun _ => t) fuel' 0 s = .ok (name', fs2, s2)) :
    s1.taken < s2.taken ∧ name ≠ name' := by
  obtain ⟨i, hi, e, hc, hm, rfl⟩ := C153_without_map db d fs fs1 board name _ fuel 0 s s1 hb h
  obtain ⟨i', hi', e', hc', hm', rfl⟩ := C153_without_map db d fs1 fs2 board name' _ fuel' 0 s s2 hb h'
  obtain ⟨l, hl, hg, rfl⟩ := createExcl_ok hc
  have hnd : fs.get l ≠ some .dir := by rw [hg]; simp
  have back : ∀ n, CanMake db (fs.set l (.file [])) board n → CanMake db fs board n ∧ n ≠ name := by
    intro n hn
    obtain ⟨a, b⟩ := canMake_set hnd hn
    exact ⟨a, fun e => b (e ▸ hl)⟩
  refine ⟨?_, fun e => (back _ ⟨_, hc'⟩).2 e.symm⟩
  show s.taken + i + 1 < s.taken + i' + 1
  rcases Nat.lt_trichotomy i' i with hlt | heq | hgt
  · exact absurd (e' ▸ (back _ ⟨_, hc'⟩).1) (hm i' hlt)
  · subst heq
    exact absurd (e'.trans e.symm) (back _ ⟨_, hc'⟩).2
  · omega

/-! ## Examples -/

/-- A generator for the examples. -/
def sampleDraws : Draws := fun seed k => Fin.ofNat 4096 (seed.natAbs * 7 + k / 2)

def mapArgs : Args := fun k => if k = ascii "board_id" then some (.str (ascii "S")) else some (.str (ascii "x"))

/-- Two articles in one second: the second takes three numbers, since the generator gives its first number twice. -/
example : Holds mapArgs (ascii "board_id") (ascii "S") ∧
    (match sampleDB.mapArticleFrom sampleDraws sampleFS mapArgs 9 5 ⟨3, 8⟩ with
      | .ok (r, fs1, s1) => r.filename = ascii "M.9.A.03F" && s1 = ⟨9, 1⟩ &&
        (match sampleDB.mapArticleFrom sampleDraws fs1 mapArgs 9 5 s1 with
          | .ok (r', _, s3) => r'.filename = ascii "M.9.A.040" && s3 = ⟨9, 3⟩
          | _ => false)
      | _ => false) = true := by
  refine ⟨by unfold Holds; decide, ?_⟩
  decide +kernel

/-- The hypotheses of `C153_alike`: two processes that start alike. -/
example : (match sampleDB.createNameFrom sampleDraws sampleFS (ascii "S") (fun _ => 9) 5 0 ⟨1, 0⟩ with
      | .ok (name, fs1, s1) => name = ascii "M.9.A.007" && s1 = ⟨1, 1⟩ &&
        (match sampleDB.createNameFrom sampleDraws fs1 (ascii "S") (fun _ => 9) 5 0 ⟨1, 0⟩ with
          | .ok (name', _, s2) => name' = ascii "M.9.A.008" && s2 = ⟨1, 3⟩
          | _ => false)
      | _ => false) = true := by decide +kernel

/-- The hypotheses of `C153_partial`. -/
example : sampleDraws 3 0 ≠ sampleDraws 4 0 ∧
    (match sampleFS.createExcl [] (boardDir sampleDB.home (ascii "S") ++ slash :: DB.articleName 9 (sampleDraws 3 0)),
        sampleFS.createExcl [] (boardDir sampleDB.home (ascii "S") ++ slash :: DB.articleName 9 (sampleDraws 4 0)) with
      | .ok _, .ok _ => true
      | _, _ => false) = true := by decide +kernel

end Verif
