import Verif.Model.Refusal
import Verif.Props.FullDisk
/-!
# C139: a call that the system refuses says so, and changes nothing
-/

namespace Verif
open Spec

/-! ## What is claimed -/

/-- The system refuses one of these system calls with the error `e`. -/
def Spec.Refusal (rs : List (Nat × Option String)) (e : String) : Prop := ∃ n, (n, some e) ∈ rs

/-- The answer is the right one; or it is the error of a refusal, and nothing has changed. -/
def Spec.SaysSo (db : DB) (c : Codec) (fs : FS) (op : Call) (rs : List (Nat × Option String)) (D : FS) (r : Res Answer) : Prop :=
  (r = (op.exec db c fs).2 ∧ Same D (op.exec db c fs).1) ∨ (∃ e, Refusal rs e ∧ r = .err e ∧ Same D fs)

/-- The full claim of C139, for such calls. That a file does not exist is not a refusal. -/
def Spec.RefusalsTold (P : Call → Prop) : Prop :=
  ∀ (db : DB) (c : Codec) (fs : FS) (op : Call) (rs : List (Nat × Option String)) (D : FS) (r : Res Answer), P op →
    (∀ e, Refusal rs e → e ≠ "no such file or directory") → op.under db c fs rs = (D, some r) → SaysSo db c fs op rs D r

/-- `ys` is `xs` with `z` put in any number of times, anywhere. -/
def Spec.Interspersed {α : Type} (z : α) : List α → List α → Prop
  | [], ys => ∀ y ∈ ys, y = z
  | x :: xs, ys => ∃ n rest, ys = List.replicate n z ++ x :: rest ∧ Interspersed z xs rest

theorem interspersed_refl {α : Type} (z : α) (xs : List α) : Interspersed z xs xs := by
  induction xs with
  | nil => intro y hy; cases hy
  | cons x xs ih => exact ⟨0, xs, rfl, ih⟩

theorem interspersed_snoc {α : Type} {z : α} (x : α) : ∀ {xs ys : List α}, Interspersed z xs ys → Interspersed z (xs ++ [x]) (ys ++ [x]) := by
  intro xs
  induction xs with
  | nil =>
    intro ys h
    exact ⟨ys.length, [], by rw [List.eq_replicate_of_mem h, List.length_replicate], fun y hy => by cases hy⟩
  | cons a xs ih =>
    rintro ys ⟨n, rest, rfl, h⟩
    exact ⟨n, rest ++ [x], by simp, ih h⟩

theorem interspersed_blank {α : Type} {z : α} : ∀ {xs ys : List α}, Interspersed z xs ys → Interspersed z xs (ys ++ [z]) := by
  intro xs
  induction xs with
  | nil =>
    intro ys h y hy
    rcases List.mem_append.mp hy with hy | hy
    · exact h y hy
    · exact List.mem_singleton.mp hy
  | cons a xs ih =>
    rintro ys ⟨n, rest, rfl, h⟩
    exact ⟨n, rest ++ [z], by simp, ih h⟩

theorem interspersed_map {α β : Type} {z : α} (f : α → β) : ∀ {xs ys : List α}, Interspersed z xs ys → Interspersed (f z) (xs.map f) (ys.map f) := by
  intro xs
  induction xs with
  | nil =>
    intro ys h y hy
    obtain ⟨x, hx, rfl⟩ := List.mem_map.mp hy
    rw [h x hx]
  | cons a xs ih =>
    rintro ys ⟨n, rest, rfl, h⟩
    exact ⟨n, rest.map f, by simp, ih h⟩

/-! ## Runs -/

section
variable {cwd : Path}

theorem under_done (rs : List (Nat × Option String)) (fs : FS) (r : Res Answer) : Job.playUnder cwd rs fs (.done r) = (fs, .done r) := by
  induction rs with
  | nil => rfl
  | cons x rs ih => obtain ⟨n, y⟩ := x; cases y <;> exact ih

theorem Spec.Refusal.suffix {rs rs' : List (Nat × Option String)} {e : String} (h : Refusal rs' e) (hs : rs' <:+ rs) : Refusal rs e := by
  obtain ⟨n, h⟩ := h
  exact ⟨n, hs.subset h⟩

theorem refusal_head {n : Nat} {e : String} {rs : List (Nat × Option String)} : Refusal ((n, some e) :: rs) e := ⟨n, by simp⟩

/-- The first system call: it is refused, or it is made. -/
theorem under_step {fs D : FS} {j : Job} {rs : List (Nat × Option String)} {r : Res Answer} (hj : ∀ r, j ≠ .done r)
    (h : Job.playUnder cwd rs fs j = (D, .done r)) :
    ∃ n y rs', rs = (n, y) :: rs' ∧ Job.playUnder cwd rs' (j.stepUnder cwd fs n y).1 (j.stepUnder cwd fs n y).2 = (D, .done r) := by
  cases rs with
  | nil => exact absurd (congrArg Prod.snd h) (hj r)
  | cons x rs => exact ⟨x.1, x.2, rs, rfl, h⟩

theorem under_stop {rs : List (Nat × Option String)} {fs D : FS} {r r' : Res Answer} (h : Job.playUnder cwd rs fs (.done r') = (D, .done r)) :
    D = fs ∧ r = r' := by
  rw [under_done] at h
  cases h
  exact ⟨rfl, rfl⟩

/-- Reading a text to its end. -/
theorem under_read0 {fs D : FS} {l : Path} {d : Bytes} {K : List Bytes → Job} {r : Res Answer} (hl : fs.get l = some (.file d)) :
    ∀ (rs : List (Nat × Option String)) (got : List Bytes) (pos : Nat), ReadOk 0 got pos d →
    Job.playUnder cwd rs fs (.read l 0 got pos (Job.orStop K)) = (D, .done r) →
    (D = fs ∧ ∃ e, Refusal rs e ∧ r = .err e) ∨
    ∃ rs' got', rs' <:+ rs ∧ got'.flatten = d ∧ Job.playUnder cwd rs' fs (K got') = (D, .done r) := by
  intro rs
  induction rs with
  | nil => intro got pos _ h; cases h
  | cons x rs ih =>
    intro got pos hr h
    obtain ⟨n, y⟩ := x
    cases y with
    | some e =>
      have h : Job.playUnder cwd rs fs (.done (.err e)) = (D, .done r) := h
      obtain ⟨h1, h2⟩ := under_stop h
      exact .inl ⟨h1, e, refusal_head, h2⟩
    | none =>
      by_cases hp : pos < d.length
      · have := ih _ _ (hr.step hp n) (by simpa only [Job.playUnder, Job.stepUnder, Job.step, hl, if_pos hp] using h)
        rcases this with ⟨h1, e, h2, h3⟩ | ⟨rs', got', h1, h2, h3⟩
        · exact .inl ⟨h1, e, h2.suffix (List.suffix_cons _ _), h3⟩
        · exact .inr ⟨rs', got', h1.trans (List.suffix_cons _ _), h2, h3⟩
      · have h : Job.playUnder cwd rs fs (K got) = (D, .done r) := by
          simpa only [Job.playUnder, Job.stepUnder, Job.step, hl, if_neg hp, Job.orStop] using h
        rcases hr.complete hp with ⟨_, hc⟩ | ⟨hz, _⟩
        · exact .inr ⟨rs, got, List.suffix_cons _ _, hc, h⟩
        · omega

/-- Reading a list to its end: the blank records are the reads that were refused. -/
theorem under_read {fs D : FS} {l : Path} {d : Bytes} {size : Nat} {K : Res (List Bytes) → Job} {r : Res Answer} (h0 : 0 < size)
    (hl : fs.get l = some (.file d)) :
    ∀ (rs : List (Nat × Option String)) (real got : List Bytes) (pos : Nat), ReadOk size real pos d → Interspersed [] real got →
    Job.playUnder cwd rs fs (.read l size got pos K) = (D, .done r) →
    ∃ rs' got', rs' <:+ rs ∧ Interspersed (zeros size) (slots size d) (got'.map (padTo size)) ∧
      Job.playUnder cwd rs' fs (K (.ok got')) = (D, .done r) := by
  intro rs
  induction rs with
  | nil => intro real got pos _ _ h; cases h
  | cons x rs ih =>
    intro real got pos hr hi h
    have hz : ¬ size = 0 := by omega
    obtain ⟨n, y⟩ := x
    cases y with
    | some e =>
      obtain ⟨rs', got', h1, h2, h3⟩ := ih _ _ _ hr (interspersed_blank hi) (by simpa only [Job.playUnder, Job.stepUnder, if_neg hz] using h)
      exact ⟨rs', got', h1.trans (List.suffix_cons _ _), h2, h3⟩
    | none =>
      by_cases hp : pos < d.length
      · obtain ⟨rs', got', h1, h2, h3⟩ := ih _ _ _ (hr.step hp n) (interspersed_snoc _ hi)
          (by simpa only [Job.playUnder, Job.stepUnder, Job.step, hl, if_pos hp] using h)
        exact ⟨rs', got', h1.trans (List.suffix_cons _ _), h2, h3⟩
      · have h : Job.playUnder cwd rs fs (K (.ok got)) = (D, .done r) := by
          simpa only [Job.playUnder, Job.stepUnder, Job.step, hl, if_neg hp] using h
        rcases hr.complete hp with ⟨hz', _⟩ | ⟨_, hc⟩
        · exact absurd hz' hz
        · refine ⟨rs, got, List.suffix_cons _ _, ?_, h⟩
          have := interspersed_map (padTo size) hi
          rw [hc] at this
          simpa [padTo, zeros] using this

/-- Reading a directory as a list has no end. -/
theorem under_dir {fs D : FS} {l : Path} {size : Nat} {K : Res (List Bytes) → Job} {r : Res Answer} (h0 : 0 < size) (hl : fs.get l = some .dir) :
    ∀ (rs : List (Nat × Option String)) (got : List Bytes) (pos : Nat), Job.playUnder cwd rs fs (.read l size got pos K) ≠ (D, .done r) := by
  have hz : ¬ size = 0 := by omega
  intro rs
  induction rs with
  | nil => intro got pos h; cases h
  | cons x rs ih =>
    intro got pos h
    obtain ⟨n, y⟩ := x
    cases y with
    | some e => exact ih _ _ (by simpa only [Job.playUnder, Job.stepUnder, if_neg hz] using h)
    | none => exact ih _ _ (by simpa only [Job.playUnder, Job.stepUnder, Job.step, hl, if_neg hz] using h)

/-- A text. -/
theorem under_whole {fs D : FS} {p : Bytes} {K : Bytes → Job} {r : Res Answer} {rs : List (Nat × Option String)}
    (h : Job.playUnder cwd rs fs (Job.readWhole p K) = (D, .done r)) :
    (D = fs ∧ ∃ e, Refusal rs e ∧ r = .err e) ∨ ∃ rs', rs' <:+ rs ∧ Job.playUnder cwd rs' fs (Job.orStop K (fs.readFile cwd p)) = (D, .done r) := by
  unfold Job.readWhole at h
  have h' := under_step (fun r e => by cases e) h
  clear h
  obtain ⟨n, y, rs, rfl, h⟩ := h'
  cases y with
  | some e =>
    obtain ⟨h1, h2⟩ := under_stop h
    exact .inl ⟨h1, e, refusal_head, h2⟩
  | none =>
    simp only [Job.stepUnder, Job.step, Job.opened] at h
    unfold FS.readFile
    cases e : fs.lookup cwd p with
    | ok l =>
      rw [e, Res.ok_bind] at h
      rw [Res.ok_bind]
      cases e' : fs.get l with
      | none => rw [e'] at h; exact .inr ⟨rs, List.suffix_cons _ _, h⟩
      | some nd =>
        rw [e'] at h
        cases nd with
        | dir =>
          simp only [Bool.false_eq_true, if_false, Job.orStop] at h
          have h' := under_step (fun r e => by cases e) h
          clear h
          obtain ⟨m, y, rs, rfl, h⟩ := h'
          cases y with
          | some e =>
            obtain ⟨h1, h2⟩ := under_stop h
            exact .inl ⟨h1, e, refusal_head.suffix (List.suffix_cons _ _), h2⟩
          | none =>
            simp only [Job.stepUnder, Job.step, e', if_true] at h
            exact .inr ⟨rs, (List.suffix_cons _ _).trans (List.suffix_cons _ _), h⟩
        | file d =>
          rcases under_read0 e' rs [] 0 (ReadOk.start 0 d) h with ⟨h1, e, h2, h3⟩ | ⟨rs', got, h1, h2, h3⟩
          · exact .inl ⟨h1, e, h2.suffix (List.suffix_cons _ _), h3⟩
          · subst h2
            exact .inr ⟨rs', h1.trans (List.suffix_cons _ _), h3⟩
    | err x => rw [e] at h; exact .inr ⟨rs, List.suffix_cons _ _, h⟩
    | panic => rw [e] at h; exact .inr ⟨rs, List.suffix_cons _ _, h⟩
    | diverge => rw [e] at h; exact .inr ⟨rs, List.suffix_cons _ _, h⟩

/-- A list. -/
theorem under_list {α : Type} {fs D : FS} {p : Bytes} {size : Nat} {parse : Bytes → Res α} {f : Bytes → α} {K : List α → Job} {r : Res Answer}
    {rs : List (Nat × Option String)} (h0 : 0 < size) (hp : ∀ b, b.length = size → parse b = .ok (f b))
    (h : Job.playUnder cwd rs fs (Job.readList p size parse K) = (D, .done r)) :
    (D = fs ∧ ∃ e, Refusal rs e ∧ r = .err e) ∨
    ∃ rs' x, rs' <:+ rs ∧ Job.playUnder cwd rs' fs (Job.orStop K x) = (D, .done r) ∧
      (x = listAt cwd fs p size parse ∨ ∃ xs ys, listAt cwd fs p size parse = .ok xs ∧ x = .ok ys ∧ Interspersed (f (zeros size)) xs ys) := by
  unfold Job.readList at h
  have h' := under_step (fun r e => by cases e) h
  clear h
  obtain ⟨n, y, rs, rfl, h⟩ := h'
  cases y with
  | some e =>
    obtain ⟨h1, h2⟩ := under_stop h
    exact .inl ⟨h1, e, refusal_head, h2⟩
  | none =>
    right
    simp only [Job.stepUnder, Job.step, Job.opened] at h
    unfold listAt
    cases e : fs.lookup cwd p with
    | ok l =>
      rw [e, Res.ok_bind] at h
      rw [Res.ok_bind]
      cases e' : fs.get l with
      | none => rw [e'] at h; exact ⟨rs, .err "no such file or directory", List.suffix_cons _ _, h, .inl rfl⟩
      | some nd =>
        rw [e'] at h
        cases nd with
        | dir => exact absurd h (under_dir h0 e' rs _ _)
        | file d =>
          obtain ⟨rs', got, h1, h2, h3⟩ := under_read h0 e' rs [] [] 0 (ReadOk.start size d) (interspersed_refl _ _) h
          simp only [Job.orStop, mapM_pieces hp] at h3
          refine ⟨rs', .ok ((got.map (padTo size)).map f), h1.trans (List.suffix_cons _ _), h3, .inr ⟨_, _, readFile_slots h0 hp d, rfl, interspersed_map f h2⟩⟩
    | err x => rw [e] at h; exact ⟨rs, .err x, List.suffix_cons _ _, h, .inl rfl⟩
    | panic => rw [e] at h; exact ⟨rs, .panic, List.suffix_cons _ _, h, .inl rfl⟩
    | diverge => rw [e] at h; exact ⟨rs, .diverge, List.suffix_cons _ _, h, .inl rfl⟩

/-- The client is ready, or has one thing left to do. -/
def Nearly (cwd : Path) (x : FS × Job) : Prop :=
  (∃ r, x.2 = .done r) ∨
  ((∀ r, x.2 ≠ .done r) ∧ (∀ m e, x.2.stepUnder cwd x.1 m (some e) = (x.1, .done (.err e))) ∧ ∀ m, ∃ r, (x.2.step cwd x.1 m).2 = .done r)

/-- A call that opens a file, and then does one more thing with it. -/
theorem under_two {fs D : FS} {j : Job} {r : Res Answer} {rs : List (Nat × Option String)} (hj : ∀ r, j ≠ .done r)
    (h1 : ∀ n e, j.stepUnder cwd fs n (some e) = (fs, .done (.err e)))
    (h2 : ∀ n, Nearly cwd (j.step cwd fs n))
    (h : Job.playUnder cwd rs fs j = (D, .done r)) :
    (D = fs ∧ ∃ e, Refusal rs e ∧ r = .err e) ∨
    (∃ n e, Refusal rs e ∧ r = .err e ∧ D = (j.step cwd fs n).1 ∧ ∀ r, (j.step cwd fs n).2 ≠ .done r) ∨
    ∃ ns, Job.play cwd ns fs j = (D, .done r) := by
  have h' := under_step hj h
  clear h
  obtain ⟨n, y, rs, rfl, h⟩ := h'
  cases y with
  | some e =>
    rw [h1] at h
    obtain ⟨h3, h4⟩ := under_stop h
    exact .inl ⟨h3, e, refusal_head, h4⟩
  | none =>
    right
    simp only [Job.stepUnder] at h
    rcases h2 n with ⟨r', h3⟩ | ⟨h3, h4, h5⟩
    · right
      refine ⟨[n], ?_⟩
      rw [h3] at h
      obtain ⟨h6, h7⟩ := under_stop h
      rw [Job.play, Job.play, h6, h7, ← h3]
    · have h' := under_step h3 h
      clear h
      obtain ⟨m, y, rs, rfl, h⟩ := h'
      cases y with
      | some e =>
        left
        rw [h4] at h
        obtain ⟨h6, h7⟩ := under_stop h
        exact ⟨n, e, refusal_head.suffix (List.suffix_cons _ _), h7, h6, h3⟩
      | none =>
        right
        obtain ⟨r', h6⟩ := h5 m
        simp only [Job.stepUnder] at h
        rw [h6] at h
        obtain ⟨h7, h8⟩ := under_stop h
        refine ⟨[n, m], ?_⟩
        rw [Job.play, Job.play, Job.play, h7, h8, ← h6]

end

theorem under_eq {db : DB} {c : Codec} {fs D : FS} {op : Call} {rs : List (Nat × Option String)} {r : Res Answer} :
    op.under db c fs rs = (D, some r) ↔ Job.playUnder db.cwd rs fs (Job.start db c op) = (D, .done r) := by
  unfold Call.under
  generalize Job.playUnder db.cwd rs fs (Job.start db c op) = x
  obtain ⟨a, j⟩ := x
  cases j <;> simp

theorem orStop_done {α : Type} (g : α → Res Answer) (x : Res α) : Job.orStop (fun a => .done (g a)) x = .done (x >>= g) := by
  cases x <;> rfl

theorem bind_bind {α β γ : Type} (x : Res α) (f : α → Res β) (g : β → Res γ) : ((x >>= f) >>= g) = (x >>= fun a => f a >>= g) := by
  cases x <;> rfl

/-! ## Texts, and calls that make nothing -/

/-- The calls that tell. -/
def Spec.tells : Call → Prop
  | .readArticle _ _ => True
  | .readTreasure _ _ _ => True
  | .appendArticle _ _ _ => True
  | .deleteDraft _ _ => True
  | _ => False

/-- The text of an article, of whatever path. -/
theorem under_text {db : DB} {fs D : FS} {x : Res Bytes} {rs : List (Nat × Option String)} {r : Res Answer}
    (h : Job.playUnder db.cwd rs fs (Job.orStop (fun p => Job.readWhole p fun x => .done (.ok (.bytes x))) x) = (D, .done r)) :
    D = fs ∧ ((∃ e, Refusal rs e ∧ r = .err e) ∨ r = ((x >>= fun p => fs.readFile db.cwd p) >>= fun y => .ok (.bytes y))) := by
  cases x with
  | ok p =>
    simp only [Job.orStop] at h
    rcases under_whole h with ⟨h1, h2⟩ | ⟨rs', _, h1⟩
    · exact ⟨h1, .inl h2⟩
    · rw [orStop_done] at h1
      obtain ⟨h2, h3⟩ := under_stop h1
      exact ⟨h2, .inr h3⟩
  | err e => obtain ⟨h2, h3⟩ := under_stop h; exact ⟨h2, .inr h3⟩
  | panic => obtain ⟨h2, h3⟩ := under_stop h; exact ⟨h2, .inr h3⟩
  | diverge => obtain ⟨h2, h3⟩ := under_stop h; exact ⟨h2, .inr h3⟩

/-- What a call that opens a file and writes to it leaves when it is refused. -/
theorem under_writer {db : DB} {c : Codec} {fs D : FS} {op : Call} {x : Res Bytes} {J : Bytes → Job} {rs : List (Nat × Option String)} {r : Res Answer}
    (hs : Job.start db c op = Job.orStop J x) (hJ : ∀ p, x = .ok p → (∀ r, J p ≠ .done r) ∧
      (∀ n e, (J p).stepUnder db.cwd fs n (some e) = (fs, .done (.err e))) ∧
      ∀ n, Nearly db.cwd ((J p).step db.cwd fs n))
    (h : op.under db c fs rs = (D, some r)) :
    SaysSo db c fs op rs D r ∨ ∃ p n e, x = .ok p ∧ Refusal rs e ∧ r = .err e ∧ D = ((J p).step db.cwd fs n).1 ∧ ∀ r, ((J p).step db.cwd fs n).2 ≠ .done r := by
  rw [under_eq, hs] at h
  have stop : ∀ r', Job.orStop J x = .done r' → SaysSo db c fs op rs D r := by
    intro r' e
    rw [e] at h
    obtain ⟨h1, h2⟩ := under_stop h
    left
    have : Job.play db.cwd [] fs (Job.start db c op) = (D, .done r) := by rw [hs, e, h1, h2]; rfl
    exact play_answer this
  cases x with
  | ok p =>
    simp only [Job.orStop] at h
    obtain ⟨a1, a2, a3⟩ := hJ p rfl
    rcases under_two a1 a2 a3 h with ⟨h1, e, h2, h3⟩ | ⟨n, e, h1, h2, h3, h4⟩ | ⟨ns, h1⟩
    · exact .inl (.inr ⟨e, h2, h3, h1 ▸ same_refl _⟩)
    · exact .inr ⟨p, n, e, rfl, h1, h2, h3, h4⟩
    · refine .inl (.inl (play_answer (ns := ns) ?_))
      rw [hs]
      exact h1
  | err e => exact .inl (stop _ rfl)
  | panic => exact .inl (stop _ rfl)
  | diverge => exact .inl (stop _ rfl)

/-- **C139, what holds.** Reading an article or a treasure, adding to an article and deleting a draft: the answer is right, or it is the refusal and
nothing has changed. -/
theorem C139_partial : Spec.RefusalsTold tells := by
  intro db c fs op rs D r hop _ h
  cases op with
  | readArticle b f =>
    obtain ⟨h1, ⟨e, h2, h3⟩ | h2⟩ := under_text (under_eq.mp h)
    · exact .inr ⟨e, h2, h3, h1 ▸ same_refl _⟩
    · exact .inl ⟨h2, h1 ▸ same_refl _⟩
  | readTreasure b ds f =>
    obtain ⟨h1, ⟨e, h2, h3⟩ | h2⟩ := under_text (under_eq.mp h)
    · exact .inr ⟨e, h2, h3, h1 ▸ same_refl _⟩
    · exact .inl ⟨h2, h1 ▸ same_refl _⟩
  | appendArticle b f x =>
    rcases under_writer (x := getBoardArticleFilePath db.home b f) (J := fun p => .openWrite p (Job.orStop fun l => .append l x (.done (.ok .done))))
      rfl (fun p _ => ⟨fun r e => (by cases e), fun n e => rfl, fun n => (by
        simp only [Job.step]
        cases Job.opened fs db.cwd p true with
        | ok l => exact .inr ⟨fun r e => (by cases e), fun m e => rfl, fun m => (by show ∃ r, (Job.step _ _ _ (.append _ _ _)).2 = _; simp only [Job.step]; split <;> exact ⟨_, rfl⟩)⟩
        | err e => exact .inl ⟨_, rfl⟩
        | panic => exact .inl ⟨_, rfl⟩
        | diverge => exact .inl ⟨_, rfl⟩)⟩) h with h | ⟨p, n, e, _, h2, h3, h4, _⟩
    · exact h
    · exact .inr ⟨e, h2, h3, h4 ▸ same_refl _⟩
  | deleteDraft u d =>
    have hd : ∀ p n, ∃ r, (Job.step db.cwd fs n (.unlink p (Job.orStop fun _ => .done (.ok .done)))).2 = .done r := by
      intro p n
      simp only [Job.step]
      split <;> exact ⟨_, rfl⟩
    rcases under_writer (x := getUserDraftPath db.home u d) (J := fun p => .unlink p (Job.orStop fun _ => .done (.ok .done)))
      rfl (fun p _ => ⟨fun r e => (by cases e), fun n e => rfl, fun n => .inl (hd p n)⟩) h with h | ⟨p, n, e, _, h2, h3, h4, h5⟩
    · exact h
    · obtain ⟨r', h6⟩ := hd p n
      exact absurd h6 (h5 r')
  | _ => exact hop.elim

/-! ## Calls that make a file, or empty it -/

/-- The calls that make their file. -/
def Spec.makers : Call → Prop
  | .addBoard _ => True
  | .addRecord _ _ => True
  | .writeArticle _ _ _ => True
  | .writeDraft _ _ _ => True
  | _ => False

/-- The file of the call has been made or opened, and nothing has been written to it; the old text of a draft is gone by then. -/
def Spec.OpenedOnly (db : DB) (c : Codec) (fs : FS) (op : Call) (D : FS) : Prop :=
  ∃ p l old, target db op = .ok p ∧ fs.lookup db.cwd p = .ok l ∧ (fs.get l = some (.file old) ∨ fs.get l = none ∧ old = []) ∧
    D.get l = some (.file (begun c 0 old op)) ∧ SameExcept fs D [l]

/-- **C139, calls that make their file.** The answer is right, or it is the refusal; then nothing has changed, or the file has been made empty, or the draft
emptied. -/
theorem C139_makers (db : DB) (c : Codec) (fs : FS) (op : Call) (rs : List (Nat × Option String)) (D : FS) (r : Res Answer) (hop : makers op)
    (h : op.under db c fs rs = (D, some r)) :
    SaysSo db c fs op rs D r ∨ ∃ e, Refusal rs e ∧ r = .err e ∧ OpenedOnly db c fs op D := by
  have app : ∀ (l : Path) (bs : Bytes), (∀ r, Job.append l bs (.done (.ok .done)) ≠ .done r) ∧
      (∀ (fs1 : FS) m e, Job.stepUnder db.cwd fs1 m (some e) (.append l bs (.done (.ok .done))) = (fs1, .done (.err e))) ∧
      ∀ fs1 m, ∃ r, (Job.step db.cwd fs1 m (.append l bs (.done (.ok .done)))).2 = .done r :=
    fun l bs => ⟨fun r e => (by cases e), fun fs1 m e => rfl, fun fs1 m => (by simp only [Job.step]; split <;> exact ⟨_, rfl⟩)⟩
  have put : ∀ (l : Path) (bs : Bytes), (∀ r, Job.put l bs (.done (.ok .done)) ≠ .done r) ∧
      (∀ (fs1 : FS) m e, Job.stepUnder db.cwd fs1 m (some e) (.put l bs (.done (.ok .done))) = (fs1, .done (.err e))) ∧
      ∀ fs1 m, ∃ r, (Job.step db.cwd fs1 m (.put l bs (.done (.ok .done)))).2 = .done r :=
    fun l bs => ⟨fun r e => (by cases e), fun fs1 m e => rfl, fun fs1 m => (by simp only [Job.step]; split <;> exact ⟨_, rfl⟩)⟩
  have make : ∀ (x : Res Bytes) (w : Path → Job), target db op = x → (∀ old, begun c 0 old op = old) →
      Job.start db c op = Job.orStop (fun p => .openMake p (Job.orStop w)) x →
      (∀ l, (∀ r, w l ≠ .done r) ∧ (∀ (fs1 : FS) m e, Job.stepUnder db.cwd fs1 m (some e) (w l) = (fs1, .done (.err e))) ∧
        ∀ fs1 m, ∃ r, (Job.step db.cwd fs1 m (w l)).2 = .done r) →
      SaysSo db c fs op rs D r ∨ ∃ e, Refusal rs e ∧ r = .err e ∧ OpenedOnly db c fs op D := by
    intro x w ht hb hs hw
    have two : ∀ p n, Nearly db.cwd (Job.step db.cwd fs n (.openMake p (Job.orStop w))) := by
      intro p n
      simp only [Job.step]
      cases ho : fs.openCreate db.cwd p with
      | ok y => obtain ⟨l, d⟩ := y; exact .inr ⟨(hw l).1, (hw l).2.1 _, (hw l).2.2 _⟩
      | err e => exact .inl ⟨_, rfl⟩
      | panic => exact .inl ⟨_, rfl⟩
      | diverge => exact .inl ⟨_, rfl⟩
    rcases under_writer hs (fun p _ => ⟨fun r e => (by cases e), fun n e => rfl, two p⟩) h with h | ⟨p, n, e, h1, h2, h3, h4, h5⟩
    · exact .inl h
    · refine .inr ⟨e, h2, h3, ?_⟩
      simp only [Job.step] at h4 h5
      cases ho : fs.openCreate db.cwd p with
      | ok y =>
        obtain ⟨l, d⟩ := y
        obtain ⟨h6, h7, h8⟩ := FS.openCreate_ok ho
        rw [ho] at h4
        have h4 : D = made fs l := h4
        have hroot : l ≠ [] := FS.ne_root h7
        refine ⟨p, l, d, ht.trans h1, h6, ?_, ?_, ?_⟩
        · unfold fileAt at h8
          cases hg : fs.get l with
          | none => rw [hg] at h8; exact .inr ⟨rfl, h8⟩
          | some nd => cases nd with
            | dir => exact absurd hg h7
            | file z => rw [hg] at h8; rw [h8]; exact .inl rfl
        · rw [h4, hb, made_get h7 h8]
        · intro q hq
          rw [h4]
          unfold made
          split
          · rw [FS.get_set hroot, if_neg (by simpa using hq)]
          · rfl
      | err e => rw [ho] at h5; exact absurd rfl (h5 _)
      | panic => rw [ho] at h5; exact absurd rfl (h5 _)
      | diverge => rw [ho] at h5; exact absurd rfl (h5 _)
  cases op with
  | addBoard x => exact make (getBoardPath db.home) (fun l => .append l (x.marshal c) (.done (.ok .done))) rfl (fun old => by simp [begun]) rfl (fun l => app l _)
  | addRecord b x => exact make (getBoardArticlesDirectoryPath db.home b) (fun l => .append l (x.marshal c) (.done (.ok .done))) rfl (fun old => by simp [begun]) rfl (fun l => app l _)
  | writeArticle b f x => exact make (getBoardArticleFilePath db.home b f) (fun l => .put l x (.done (.ok .done))) rfl (fun old => by simp [begun]) rfl (fun l => put l _)
  | writeDraft u d x =>
    rcases under_writer (x := getUserDraftPath db.home u d) (J := fun p => .openTrunc p (Job.orStop fun l => .put l x (.done (.ok .done))))
      rfl (fun p _ => ⟨fun r e => (by cases e), fun n e => rfl, fun n => (by
        simp only [Job.step]
        cases ho : fs.openCreate db.cwd p with
        | ok y => obtain ⟨l, y⟩ := y; exact .inr ⟨(put l x).1, (put l x).2.1 _, (put l x).2.2 _⟩
        | err e => exact .inl ⟨_, rfl⟩
        | panic => exact .inl ⟨_, rfl⟩
        | diverge => exact .inl ⟨_, rfl⟩)⟩) h with h | ⟨p, n, e, h1, h2, h3, h4, h5⟩
    · exact .inl h
    · refine .inr ⟨e, h2, h3, ?_⟩
      simp only [Job.step] at h4 h5
      cases ho : fs.openCreate db.cwd p with
      | ok y =>
        obtain ⟨l, y⟩ := y
        obtain ⟨h6, h7, h8⟩ := FS.openCreate_ok ho
        rw [ho] at h4
        have h4 : D = fs.set l (.file []) := h4
        have hroot : l ≠ [] := FS.ne_root h7
        refine ⟨p, l, y, h1, h6, ?_, ?_, ?_⟩
        · unfold fileAt at h8
          cases hg : fs.get l with
          | none => rw [hg] at h8; exact .inr ⟨rfl, h8⟩
          | some nd => cases nd with
            | dir => exact absurd hg h7
            | file z => rw [hg] at h8; rw [h8]; exact .inl rfl
        · rw [h4, FS.get_set hroot, if_pos rfl]; simp [begun]
        · intro q hq
          rw [h4, FS.get_set hroot, if_neg (by simpa using hq)]
      | err e => rw [ho] at h5; exact absurd rfl (h5 _)
      | panic => rw [ho] at h5; exact absurd rfl (h5 _)
      | diverge => rw [ho] at h5; exact absurd rfl (h5 _)
  | _ => exact hop.elim

/-! ## Drafts -/

/-- **C139, reading a draft.** The answer is right, or it is the refusal, or an empty text that hides the refusal; nothing has changed. -/
theorem C139_draft (db : DB) (c : Codec) (fs : FS) (u d : Bytes) (rs : List (Nat × Option String)) (D : FS) (r : Res Answer)
    (h : (Call.readDraft u d).under db c fs rs = (D, some r)) :
    D = fs ∧ ((∃ e, Refusal rs e ∧ r = .err e) ∨ r = ((Call.readDraft u d).exec db c fs).2 ∨ (∃ e, Refusal rs e ∧ r = .ok (.bytes []))) := by
  rw [under_eq, Job.start] at h
  simp only [Call.exec, reads, DB.getUserDraft]
  cases hp : getUserDraftPath db.home u d with
  | ok p =>
    rw [hp] at h
    simp only [Job.orStop] at h
    have h' := under_step (fun r e => by cases e) h
    clear h
    obtain ⟨n, y, rs, rfl, h⟩ := h'
    cases y with
    | some e =>
      obtain ⟨h1, h2⟩ := under_stop h
      exact ⟨h1, .inr (.inr ⟨e, refusal_head, h2⟩)⟩
    | none =>
      simp only [Job.stepUnder, Job.step] at h
      rw [Res.ok_bind]
      cases hs : fs.statOk db.cwd p with
      | false =>
        rw [hs] at h
        obtain ⟨h1, h2⟩ := under_stop h
        exact ⟨h1, .inr (.inl h2)⟩
      | true =>
        rw [hs] at h
        rcases under_whole h with ⟨h1, e, h2, h3⟩ | ⟨rs', _, h1⟩
        · exact ⟨h1, .inl ⟨e, h2.suffix (List.suffix_cons _ _), h3⟩⟩
        · rw [orStop_done] at h1
          obtain ⟨h2, h3⟩ := under_stop h1
          exact ⟨h2, .inr (.inl h3)⟩
  | err e => rw [hp] at h; obtain ⟨h1, h2⟩ := under_stop h; exact ⟨h1, .inr (.inl h2)⟩
  | panic => rw [hp] at h; obtain ⟨h1, h2⟩ := under_stop h; exact ⟨h1, .inr (.inl h2)⟩
  | diverge => rw [hp] at h; obtain ⟨h1, h2⟩ := under_stop h; exact ⟨h1, .inr (.inl h2)⟩

/-- **C139, a draft that cannot be looked at is empty.** Whatever text it has, and whatever the refusal is. -/
theorem C139_draft_empty (db : DB) (c : Codec) (fs : FS) (u d : Bytes) (hu : u ≠ []) (n : Nat) (e : String) :
    (Call.readDraft u d).under db c fs [(n, some e)] = (fs, some (.ok (.bytes []))) := by
  cases u with
  | nil => exact absurd rfl hu
  | cons x u => rfl

/-! ## Lists -/

/-- The answer of a list, of whatever path. -/
theorem under_records {α : Type} {db : DB} {fs D : FS} {x : Res Bytes} {rs : List (Nat × Option String)} {r : Res Answer} {size : Nat}
    {parse : Bytes → Res α} {f : Bytes → α} {g : List α → Answer} (h0 : 0 < size) (hp : ∀ b, b.length = size → parse b = .ok (f b))
    (h : Job.playUnder db.cwd rs fs (Job.orStop (fun p => Job.readList p size parse fun l => .done (.ok (g l))) x) = (D, .done r)) :
    D = fs ∧ ((∃ e, Refusal rs e ∧ r = .err e) ∨ r = ((x >>= fun p => listAt db.cwd fs p size parse) >>= fun l => .ok (g l)) ∨
      ∃ xs ys, (x >>= fun p => listAt db.cwd fs p size parse) = .ok xs ∧ Interspersed (f (zeros size)) xs ys ∧ r = .ok (g ys)) := by
  cases x with
  | ok p =>
    simp only [Job.orStop] at h
    rcases under_list h0 hp h with ⟨h1, h2⟩ | ⟨rs', x, _, h1, h2⟩
    · exact ⟨h1, .inl h2⟩
    · rw [orStop_done] at h1
      obtain ⟨h3, h4⟩ := under_stop h1
      rcases h2 with rfl | ⟨xs, ys, h5, rfl, h6⟩
      · exact ⟨h3, .inr (.inl h4)⟩
      · exact ⟨h3, .inr (.inr ⟨xs, ys, h5, h6, h4⟩)⟩
  | err e => obtain ⟨h2, h3⟩ := under_stop h; exact ⟨h2, .inr (.inl h3)⟩
  | panic => obtain ⟨h2, h3⟩ := under_stop h; exact ⟨h2, .inr (.inl h3)⟩
  | diverge => obtain ⟨h2, h3⟩ := under_stop h; exact ⟨h2, .inr (.inl h3)⟩

/-- **C139, the users.** The answer is right, or it is the refusal, or it has blank users among the right ones; nothing has changed. -/
theorem C139_users (db : DB) (c : Codec) (fs : FS) (rs : List (Nat × Option String)) (D : FS) (r : Res Answer)
    (h : Call.readUsers.under db c fs rs = (D, some r)) :
    D = fs ∧ ((∃ e, Refusal rs e ∧ r = .err e) ∨ r = (Call.readUsers.exec db c fs).2 ∨
      ∃ xs ys, db.readUserRecords c fs = .ok xs ∧ Interspersed (Userec.parse c (zeros 512)) xs ys ∧ r = .ok (.users ys)) :=
  under_records (x := getPasswdsPath db.home) (by omega) (Userec.unmarshal_eq c) (under_eq.mp h)

/-- **C139, the boards.** -/
theorem C139_boards (db : DB) (c : Codec) (fs : FS) (rs : List (Nat × Option String)) (D : FS) (r : Res Answer)
    (h : Call.readBoards.under db c fs rs = (D, some r)) :
    D = fs ∧ ((∃ e, Refusal rs e ∧ r = .err e) ∨ r = (Call.readBoards.exec db c fs).2 ∨
      ∃ xs ys, db.readBoardRecords c fs = .ok xs ∧ Interspersed (BoardHeader.parse c (zeros 256)) xs ys ∧ r = .ok (.boards ys)) :=
  under_records (x := getBoardPath db.home) (by omega) (BoardHeader.unmarshal_eq c) (under_eq.mp h)

/-- **C139, the treasures of a board.** -/
theorem C139_treasures (db : DB) (c : Codec) (fs : FS) (b : Bytes) (ds : List Bytes) (rs : List (Nat × Option String)) (D : FS) (r : Res Answer)
    (h : (Call.listTreasure b ds).under db c fs rs = (D, some r)) :
    D = fs ∧ ((∃ e, Refusal rs e ∧ r = .err e) ∨ r = ((Call.listTreasure b ds).exec db c fs).2 ∨
      ∃ xs ys, db.readTreasureRecords c fs b ds = .ok xs ∧ Interspersed (FileHeader.parse c (zeros 128)) xs ys ∧ r = .ok (.articles ys)) :=
  under_records (x := getBoardTreasuresDirectoryPath db.home b ds) (by omega) (FileHeader.unmarshal_eq c) (under_eq.mp h)

/-- **C139, the articles of a board.** -/
theorem C139_articles (db : DB) (c : Codec) (fs : FS) (b : Bytes) (rs : List (Nat × Option String)) (D : FS) (r : Res Answer)
    (he : ∀ e, Refusal rs e → e ≠ "no such file or directory") (h : (Call.listArticles b).under db c fs rs = (D, some r)) :
    D = fs ∧ ((∃ e, Refusal rs e ∧ r = .err e) ∨ r = ((Call.listArticles b).exec db c fs).2 ∨
      ∃ xs ys, db.readArticleRecords c fs b = .ok xs ∧ Interspersed (FileHeader.parse c (zeros 128)) xs ys ∧ r = .ok (.articles ys)) := by
  rw [under_eq, Job.start] at h
  simp only [Call.exec, reads, DB.readArticleRecords]
  cases hp : getBoardArticlesDirectoryPath db.home b with
  | ok p =>
    rw [hp] at h
    simp only [Job.orStop] at h
    have h' := under_step (fun r e => by cases e) h
    clear h
    obtain ⟨n, y, rs, rfl, h⟩ := h'
    cases y with
    | some e =>
      simp only [Job.stepUnder, if_neg (he e refusal_head)] at h
      obtain ⟨h1, h2⟩ := under_stop h
      exact ⟨h1, .inl ⟨e, refusal_head, h2⟩⟩
    | none =>
      refine And.imp_right Or.inr ?_
      simp only [Job.stepUnder, Job.step, Job.opened] at h
      rw [Res.ok_bind, openArticleList_eq]
      unfold listAt
      cases e : fs.lookup db.cwd p with
      | ok l =>
        rw [e, Res.ok_bind] at h
        rw [Res.ok_bind]
        cases e' : fs.get l with
        | none =>
          rw [e'] at h
          simp only [if_true] at h
          obtain ⟨h1, h2⟩ := under_stop h
          exact ⟨h1, .inl (by rw [h2]; rfl)⟩
        | some nd =>
          rw [e'] at h
          cases nd with
          | dir => exact absurd h (under_dir (by omega) e' rs _ _)
          | file d =>
            obtain ⟨rs', got, h1, h2, h3⟩ := under_read (by omega) e' rs [] [] 0 (ReadOk.start 128 d) (interspersed_refl _ _) h
            simp only [Job.orStop, mapM_pieces (FileHeader.unmarshal_eq c)] at h3
            obtain ⟨h4, h5⟩ := under_stop h3
            refine ⟨h4, .inr ⟨_, _, ?_, interspersed_map (FileHeader.parse c) h2, h5⟩⟩
            simp only [readFile_slots (show 0 < 128 by omega) (FileHeader.unmarshal_eq c)]
      | err x =>
        rw [e] at h
        have h : Job.playUnder db.cwd rs fs (.done (if x = "no such file or directory" then .ok (.articles []) else .err x)) = (D, .done r) := h
        obtain ⟨h1, h2⟩ := under_stop h
        refine ⟨h1, .inl ?_⟩
        rw [h2]
        simp only [Res.err_bind]
        split <;> rfl
      | panic => rw [e] at h; obtain ⟨h1, h2⟩ := under_stop h; exact ⟨h1, .inl h2⟩
      | diverge => rw [e] at h; obtain ⟨h1, h2⟩ := under_stop h; exact ⟨h1, .inl h2⟩
  | err e => rw [hp] at h; obtain ⟨h1, h2⟩ := under_stop h; exact ⟨h1, .inr (.inl h2)⟩
  | panic => rw [hp] at h; obtain ⟨h1, h2⟩ := under_stop h; exact ⟨h1, .inr (.inl h2)⟩
  | diverge => rw [hp] at h; obtain ⟨h1, h2⟩ := under_stop h; exact ⟨h1, .inr (.inl h2)⟩

/-! ## Favourites -/

/-- **C139, the favourites of a user.** The answer is right, or it is the refusal, or no favourites at all, or it has the names that the boards have when
blank boards are among them. -/
theorem C139_favourites (db : DB) (c : Codec) (fs : FS) (u : Bytes) (rs : List (Nat × Option String)) (D : FS) (r : Res Answer)
    (h : (Call.readFavourites u).under db c fs rs = (D, some r)) :
    D = fs ∧ ((∃ e, Refusal rs e ∧ r = .err e) ∨ r = ((Call.readFavourites u).exec db c fs).2 ∨ (∃ e, Refusal rs e ∧ r = .ok (.favourites [])) ∨
      ∃ p data fav xs ys, getUserFavoritePath db.home u = .ok p ∧ fs.readFile db.cwd p = .ok data ∧ loadFav c data = .ok fav ∧
        db.readBoardRecords c fs = .ok xs ∧ Interspersed (BoardHeader.parse c (zeros 256)) xs ys ∧
        r = (fav.folder.resolve ys >>= fun folder => .ok (.favourites folder.items))) := by
  rw [under_eq, Job.start] at h
  simp only [Call.exec, reads, DB.readFavorites, DB.readFavoriteFile]
  cases hp : getUserFavoritePath db.home u with
  | ok p =>
    rw [hp] at h
    simp only [Job.orStop] at h
    have h' := under_step (fun r e => by cases e) h
    clear h
    obtain ⟨n, y, rs, rfl, h⟩ := h'
    cases y with
    | some e =>
      obtain ⟨h1, h2⟩ := under_stop h
      exact ⟨h1, .inr (.inr (.inl ⟨e, refusal_head, h2⟩))⟩
    | none =>
      simp only [Job.stepUnder, Job.step] at h
      rw [Res.ok_bind]
      cases hs : fs.statOk db.cwd p with
      | false =>
        rw [hs] at h
        obtain ⟨h1, h2⟩ := under_stop h
        exact ⟨h1, .inr (.inl h2)⟩
      | true =>
        rw [hs] at h
        simp only [Bool.not_true, Bool.false_eq_true, if_false]
        rcases under_whole h with ⟨h1, e, h2, h3⟩ | ⟨rs', hrs, h1⟩
        · exact ⟨h1, .inl ⟨e, h2.suffix (List.suffix_cons _ _), h3⟩⟩
        · clear h
          cases hd : fs.readFile db.cwd p with
          | ok data =>
            rw [hd] at h1
            simp only [Job.orStop] at h1
            rw [Res.ok_bind]
            cases hf : loadFav c data with
            | ok fav =>
              rw [hf] at h1
              simp only [Res.ok_bind]
              cases hb : getBoardPath db.home with
              | ok bp =>
                rw [hb] at h1
                simp only [Res.ok_bind, openBoardList_eq]
                rcases under_list (by omega) (BoardHeader.unmarshal_eq c) h1 with ⟨h2, e, h3, h4⟩ | ⟨rs2, x, hrs2, h2, h3⟩
                · exact ⟨h2, .inl ⟨e, (h3.suffix hrs).suffix (List.suffix_cons _ _), h4⟩⟩
                · have e1 : Job.orStop (fun br => Job.orStop (fun folder : FavFolder => .done (.ok (.favourites folder.items))) (fav.folder.resolve br)) x =
                      .done (x >>= fun br => fav.folder.resolve br >>= fun folder => .ok (.favourites folder.items)) := by
                    cases x with
                    | ok br => exact orStop_done _ _
                    | _ => rfl
                  have h2 : Job.playUnder db.cwd rs2 fs (.done (x >>= fun br => fav.folder.resolve br >>= fun folder => .ok (.favourites folder.items))) =
                      (D, .done r) := by rw [← e1]; exact h2
                  obtain ⟨h4, h5⟩ := under_stop h2
                  rcases h3 with rfl | ⟨xs, ys, h6, rfl, h7⟩
                  · refine ⟨h4, .inr (.inl ?_)⟩
                    rw [h5, bind_bind]
                    congr 1
                    funext br
                    rw [bind_bind]
                    rfl
                  · refine ⟨h4, .inr (.inr (.inr ⟨p, data, fav, xs, ys, rfl, hd, hf, ?_, h7, h5⟩))⟩
                    rw [DB.readBoardRecords, hb, Res.ok_bind, openBoardList_eq, h6]
              | err e => rw [hb] at h1; obtain ⟨h2, h3⟩ := under_stop h1; exact ⟨h2, .inr (.inl h3)⟩
              | panic => rw [hb] at h1; obtain ⟨h2, h3⟩ := under_stop h1; exact ⟨h2, .inr (.inl h3)⟩
              | diverge => rw [hb] at h1; obtain ⟨h2, h3⟩ := under_stop h1; exact ⟨h2, .inr (.inl h3)⟩
            | err e => rw [hf] at h1; obtain ⟨h2, h3⟩ := under_stop h1; exact ⟨h2, .inr (.inl h3)⟩
            | panic => rw [hf] at h1; obtain ⟨h2, h3⟩ := under_stop h1; exact ⟨h2, .inr (.inl h3)⟩
            | diverge => rw [hf] at h1; obtain ⟨h2, h3⟩ := under_stop h1; exact ⟨h2, .inr (.inl h3)⟩
          | err e => rw [hd] at h1; obtain ⟨h2, h3⟩ := under_stop h1; exact ⟨h2, .inr (.inl h3)⟩
          | panic => rw [hd] at h1; obtain ⟨h2, h3⟩ := under_stop h1; exact ⟨h2, .inr (.inl h3)⟩
          | diverge => rw [hd] at h1; obtain ⟨h2, h3⟩ := under_stop h1; exact ⟨h2, .inr (.inl h3)⟩
  | err e => rw [hp] at h; obtain ⟨h1, h2⟩ := under_stop h; exact ⟨h1, .inr (.inl h2)⟩
  | panic => rw [hp] at h; obtain ⟨h1, h2⟩ := under_stop h; exact ⟨h1, .inr (.inl h2)⟩
  | diverge => rw [hp] at h; obtain ⟨h1, h2⟩ := under_stop h; exact ⟨h1, .inr (.inl h2)⟩

/-! ## Every such list is possible -/

theorem interspersed_unmap {α β : Type} {z : α} (f : α → β) : ∀ {xs : List α} {ys : List β}, Interspersed (f z) (xs.map f) ys →
    ∃ zs, Interspersed z xs zs ∧ ys = zs.map f := by
  intro xs
  induction xs with
  | nil =>
    intro ys h
    refine ⟨List.replicate ys.length z, fun y hy => List.eq_of_mem_replicate hy, ?_⟩
    rw [List.map_replicate]
    exact List.eq_replicate_of_mem h
  | cons a xs ih =>
    rintro ys ⟨n, rest, rfl, h⟩
    obtain ⟨zs, h1, rfl⟩ := ih h
    exact ⟨List.replicate n z ++ a :: zs, ⟨n, zs, rfl, h1⟩, by simp⟩

/-- Reads that are refused, one after the other. -/
theorem under_blanks {cwd : Path} {fs : FS} {l : Path} {size : Nat} {K : Res (List Bytes) → Job} (h0 : 0 < size) (e : String) (n : Nat) :
    ∀ (rs : List (Nat × Option String)) (got : List Bytes) (pos : Nat),
    Job.playUnder cwd (List.replicate n (0, some e) ++ rs) fs (.read l size got pos K) =
      Job.playUnder cwd rs fs (.read l size (got ++ List.replicate n []) pos K) := by
  have hz : ¬ size = 0 := by omega
  induction n with
  | zero => intro rs got pos; simp
  | succ n ih =>
    intro rs got pos
    have : Job.playUnder cwd (List.replicate (n + 1) (0, some e) ++ rs) fs (.read l size got pos K) =
        Job.playUnder cwd (List.replicate n (0, some e) ++ rs) fs (.read l size (got ++ [[]]) pos K) := by
      simp only [List.replicate_succ, List.cons_append, Job.playUnder, Job.stepUnder, if_neg hz]
    rw [this, ih, List.append_assoc]
    rfl

theorem slots_drop {size : Nat} (h0 : 0 < size) {d : Bytes} {i : Nat} {x : Bytes} {xs : List Bytes} (h : (slots size d).drop i = x :: xs) :
    size * i < d.length ∧ x = slot size d i ∧ (slots size d).drop (i + 1) = xs := by
  have hi : i < (slots size d).length := by
    rcases Nat.lt_or_ge i (slots size d).length with hi | hi
    · exact hi
    · rw [List.drop_of_length_le hi] at h; cases h
  rw [List.drop_eq_getElem_cons hi] at h
  injection h with h1 h2
  refine ⟨?_, ?_, h2⟩
  · simp only [slots, List.length_map, List.length_range] at hi
    have := (Nat.lt_div_iff_mul_lt h0).mp hi
    rw [Nat.mul_comm]
    omega
  · rw [← h1]; simp [slots]

/-- Every list with blank records put in is the result of reading, if the right reads are refused. -/
theorem under_attain {cwd : Path} {fs : FS} {l : Path} {d : Bytes} {size : Nat} {K : Res (List Bytes) → Job} (h0 : 0 < size)
    (hl : fs.get l = some (.file d)) (e : String) :
    ∀ (xs ys : List Bytes) (i : Nat) (got : List Bytes), (slots size d).drop i = xs → Interspersed (zeros size) xs ys →
    ∃ rs got', (∀ e', Refusal rs e' → e' = e) ∧ got'.map (padTo size) = ys ∧
      Job.playUnder cwd rs fs (.read l size got (min (size * i) d.length) K) = (fs, K (.ok (got ++ got'))) := by
  have hz : ¬ size = 0 := by omega
  intro xs
  induction xs with
  | nil =>
    intro ys i got hd hi
    have hlen : (slots size d).length ≤ i := by
      rcases Nat.lt_or_ge i (slots size d).length with h | h
      · rw [List.drop_eq_getElem_cons h] at hd; cases hd
      · exact h
    have hend : ¬ min (size * i) d.length < d.length := by
      simp only [slots, List.length_map, List.length_range] at hlen
      have := Nat.div_lt_iff_lt_mul h0 |>.mp (Nat.lt_succ_of_le hlen)
      rw [Nat.succ_mul, Nat.mul_comm] at this
      omega
    refine ⟨List.replicate ys.length (0, some e) ++ [(0, none)], List.replicate ys.length [], ?_, ?_, ?_⟩
    · rintro e' ⟨n, hn⟩
      rcases List.mem_append.mp hn with hn | hn
      · have := List.eq_of_mem_replicate hn; cases this; rfl
      · simp at hn
    · rw [List.map_replicate, List.eq_replicate_of_mem hi, List.length_replicate]
      simp [padTo]
    · rw [under_blanks h0]
      simp only [Job.playUnder, Job.stepUnder, Job.step, hl, if_neg hend]
  | cons x xs ih =>
    rintro ys i got hd ⟨n, rest, rfl, hi⟩
    obtain ⟨h1, h2, h3⟩ := slots_drop h0 hd
    have hpos : min (size * i) d.length = size * i := by omega
    have hlen : size * i + (slice d (size * i) (size * i + size)).length = min (size * (i + 1)) d.length := by
      simp only [slice, List.length_drop, List.length_take, Nat.mul_add]
      omega
    obtain ⟨rs, got', h4, h5, h6⟩ := ih rest (i + 1) (got ++ List.replicate n [] ++ [slice d (size * i) (size * i + size)]) h3 hi
    refine ⟨List.replicate n (0, some e) ++ (0, none) :: rs, List.replicate n [] ++ slice d (size * i) (size * i + size) :: got', ?_, ?_, ?_⟩
    · rintro e' ⟨m, hm⟩
      rcases List.mem_append.mp hm with hm | hm
      · have := List.eq_of_mem_replicate hm; cases this; rfl
      · rcases List.mem_cons.mp hm with hm | hm
        · cases hm
        · exact h4 e' ⟨m, hm⟩
    · rw [List.map_append, List.map_cons, h5, List.map_replicate, h2]
      simp [padTo, slot]
    · rw [under_blanks h0]
      simp only [Job.playUnder, Job.stepUnder, Job.step, hl, hpos, if_pos h1, if_neg hz, hlen]
      rw [h6]
      simp

/-- The path of the list that a call reads. -/
def Spec.listPath (db : DB) : Call → Res Bytes
  | .readUsers => getPasswdsPath db.home
  | .readBoards => getBoardPath db.home
  | .listArticles b => getBoardArticlesDirectoryPath db.home b
  | .listTreasure b ds => getBoardTreasuresDirectoryPath db.home b ds
  | _ => .err "no list is read"

/-- The size of the records that a call reads. -/
def Spec.recordSize : Call → Nat
  | .readUsers => 512
  | .readBoards => 256
  | _ => 128

/-- What a call answers when the records are these. -/
def Spec.listedAs (c : Codec) (bs : List Bytes) : Call → Answer
  | .readUsers => .users (bs.map (Userec.parse c))
  | .readBoards => .boards (bs.map (BoardHeader.parse c))
  | _ => .articles (bs.map (FileHeader.parse c))

/-- After its first system call, a call that reads a list reads the records. -/
theorem list_opened {db : DB} {c : Codec} {fs : FS} {op : Call} {p d : Bytes} (hp : listPath db op = .ok p) (hr : fs.readFile db.cwd p = .ok d) :
    ∃ l K, fs.get l = some (.file d) ∧ 0 < recordSize op ∧ (∀ n, Job.step db.cwd fs n (Job.start db c op) = (fs, .read l (recordSize op) [] 0 K)) ∧
      (∀ got, K (.ok got) = .done (.ok (listedAs c (got.map (padTo (recordSize op))) op))) ∧ ∀ r, Job.start db c op ≠ .done r := by
  unfold FS.readFile at hr
  obtain ⟨l, h1, h2⟩ := Res.bind_eq_ok.mp hr
  have hg : fs.get l = some (.file d) := by
    cases hg : fs.get l with
    | none => rw [hg] at h2; cases h2
    | some nd => cases nd with
      | dir => rw [hg] at h2; cases h2
      | file x => rw [hg] at h2; cases h2; rfl
  cases op with
  | readUsers =>
    have hp : getPasswdsPath db.home = .ok p := hp
    refine ⟨l, Job.orStop fun got => Job.orStop (fun l => .done (.ok (.users l))) (got.mapM fun b => Userec.unmarshal c (padTo 512 b)), hg, by simp [recordSize],
      fun n => ?_, fun got => ?_, fun r => ?_⟩
    · simp only [Job.start, hp, Job.orStop, Job.readList, Job.step, Job.opened, h1, Res.ok_bind, hg, recordSize]
    · simp only [Job.orStop, mapM_pieces (Userec.unmarshal_eq c)]; rfl
    · simp only [Job.start, hp, Job.orStop, Job.readList]; intro h; cases h
  | readBoards =>
    have hp : getBoardPath db.home = .ok p := hp
    refine ⟨l, Job.orStop fun got => Job.orStop (fun l => .done (.ok (.boards l))) (got.mapM fun b => BoardHeader.unmarshal c (padTo 256 b)), hg, by simp [recordSize],
      fun n => ?_, fun got => ?_, fun r => ?_⟩
    · simp only [Job.start, hp, Job.orStop, Job.readList, Job.step, Job.opened, h1, Res.ok_bind, hg, recordSize]
    · simp only [Job.orStop, mapM_pieces (BoardHeader.unmarshal_eq c)]; rfl
    · simp only [Job.start, hp, Job.orStop, Job.readList]; intro h; cases h
  | listArticles b =>
    have hp : getBoardArticlesDirectoryPath db.home b = .ok p := hp
    refine ⟨l, Job.orStop fun got => Job.orStop (fun l => .done (.ok (.articles l))) (got.mapM fun b => FileHeader.unmarshal c (padTo 128 b)), hg, by simp [recordSize],
      fun n => ?_, fun got => ?_, fun r => ?_⟩
    · simp only [Job.start, hp, Job.orStop, Job.step, Job.opened, h1, Res.ok_bind, hg, recordSize]
    · simp only [Job.orStop, mapM_pieces (FileHeader.unmarshal_eq c)]; rfl
    · simp only [Job.start, hp, Job.orStop]; intro h; cases h
  | listTreasure b ds =>
    have hp : getBoardTreasuresDirectoryPath db.home b ds = .ok p := hp
    refine ⟨l, Job.orStop fun got => Job.orStop (fun l => .done (.ok (.articles l))) (got.mapM fun b => FileHeader.unmarshal c (padTo 128 b)), hg, by simp [recordSize],
      fun n => ?_, fun got => ?_, fun r => ?_⟩
    · simp only [Job.start, hp, Job.orStop, Job.readList, Job.step, Job.opened, h1, Res.ok_bind, hg, recordSize]
    · simp only [Job.orStop, mapM_pieces (FileHeader.unmarshal_eq c)]; rfl
    · simp only [Job.start, hp, Job.orStop, Job.readList]; intro h; cases h
  | _ => cases hp

/-- **C139, lists, the exact law.** These are exactly the lists that a call can answer with, whatever the error `e` of the refusals is: the right one with any number of blank
records put in anywhere. -/
theorem C139_lists_exact (db : DB) (c : Codec) (fs : FS) (op : Call) (p d : Bytes) (hp : listPath db op = .ok p) (hr : fs.readFile db.cwd p = .ok d)
    (e : String) (he : e ≠ "no such file or directory") (a : Answer) :
    (∃ rs D, (∀ e', Refusal rs e' → e' = e) ∧ op.under db c fs rs = (D, some (.ok a))) ↔
    ∃ bs, Interspersed (zeros (recordSize op)) (slots (recordSize op) d) bs ∧ a = listedAs c bs op := by
  obtain ⟨l, K, h1, h2, h3, h4, h5⟩ := list_opened (c := c) hp hr
  constructor
  · rintro ⟨rs, D, h6, h7⟩
    have h8 := under_step h5 (under_eq.mp h7)
    clear h7
    obtain ⟨n, y, rs, rfl, h7⟩ := h8
    cases y with
    | some e' =>
      exfalso
      cases op with
      | readUsers =>
        have hp : getPasswdsPath db.home = .ok p := hp
        simp only [Job.start, hp, Job.orStop, Job.readList, Job.stepUnder] at h7
        cases (under_stop h7).2
      | readBoards =>
        have hp : getBoardPath db.home = .ok p := hp
        simp only [Job.start, hp, Job.orStop, Job.readList, Job.stepUnder] at h7
        cases (under_stop h7).2
      | listArticles b =>
        have hp : getBoardArticlesDirectoryPath db.home b = .ok p := hp
        have : ¬ e' = "no such file or directory" := (h6 e' refusal_head) ▸ he
        simp only [Job.start, hp, Job.orStop, Job.stepUnder, if_neg this] at h7
        cases (under_stop h7).2
      | listTreasure b ds =>
        have hp : getBoardTreasuresDirectoryPath db.home b ds = .ok p := hp
        simp only [Job.start, hp, Job.orStop, Job.readList, Job.stepUnder] at h7
        cases (under_stop h7).2
      | _ => cases hp
    | none =>
      simp only [Job.stepUnder, h3] at h7
      obtain ⟨rs', got, _, h9, h10⟩ := under_read h2 h1 rs [] [] 0 (ReadOk.start _ d) (interspersed_refl _ _) h7
      rw [h4] at h10
      exact ⟨_, h9, Res.ok.inj (under_stop h10).2⟩
  · rintro ⟨bs, h6, rfl⟩
    obtain ⟨rs, got, h7, h8, h9⟩ := under_attain (cwd := db.cwd) (K := K) h2 h1 e _ bs 0 [] rfl h6
    refine ⟨(0, none) :: rs, fs, ?_, ?_⟩
    · rintro e' ⟨n, hn⟩
      rcases List.mem_cons.mp hn with hn | hn
      · cases hn
      · exact h7 e' ⟨n, hn⟩
    · rw [under_eq]
      have : Job.playUnder db.cwd ((0, none) :: rs) fs (Job.start db c op) = Job.playUnder db.cwd rs fs (.read l (recordSize op) [] 0 K) := by
        rw [Job.playUnder, Job.stepUnder, h3]
      rw [this]
      simp only [Nat.mul_zero, Nat.zero_min, List.nil_append] at h9
      rw [h9, h4, h8]

/-- **C139, a list that cannot be read.** As long as its reads are refused, there is no answer. -/
theorem C139_endless (db : DB) (c : Codec) (fs : FS) (op : Call) (p d : Bytes) (hp : listPath db op = .ok p) (hr : fs.readFile db.cwd p = .ok d)
    (n : Nat) (rs : List (Nat × Option String)) (h : ∀ x ∈ rs, x.2 ≠ none) : op.under db c fs ((n, none) :: rs) = (fs, none) := by
  obtain ⟨l, K, _, h2, h3, _, _⟩ := list_opened (c := c) hp hr
  have hz : ¬ recordSize op = 0 := by omega
  have go : ∀ (rs : List (Nat × Option String)) (got : List Bytes), (∀ x ∈ rs, x.2 ≠ none) →
      ∃ got', Job.playUnder db.cwd rs fs (.read l (recordSize op) got 0 K) = (fs, .read l (recordSize op) got' 0 K) := by
    intro rs
    induction rs with
    | nil => intro got _; exact ⟨got, rfl⟩
    | cons x rs ih =>
      intro got h
      obtain ⟨m, y⟩ := x
      cases y with
      | none => exact absurd rfl (h (m, none) (by simp))
      | some e =>
        obtain ⟨got', h1⟩ := ih (got ++ [[]]) (fun x hx => h x (by simp [hx]))
        refine ⟨got', ?_⟩
        rw [← h1]
        simp only [Job.playUnder, Job.stepUnder, if_neg hz]
  obtain ⟨got', h4⟩ := go rs [] h
  have : Job.playUnder db.cwd ((n, none) :: rs) fs (Job.start db c op) = (fs, .read l (recordSize op) got' 0 K) := by
    rw [Job.playUnder, Job.stepUnder, h3, h4]
  unfold Call.under
  rw [this]

/-! ## Claiming a name -/

theorem tryNames_under (db : DB) (fs : FS) (b o d t : Bytes) (draw : Nat → Int × Fin 4096) (fuel : Nat) :
    ∀ (k : Nat) (rs : List (Nat × Option String)) (D : FS) (r : Res Answer),
    Job.playUnder db.cwd rs fs (Job.tryNames db b o d t draw fuel k) = (D, .done r) →
    (r = .panic ∧ b = [] ∧ D = fs) ∨ (r = .diverge ∧ D = fs) ∨
    ∃ j, k ≤ j ∧ j < k + fuel ∧ ∃ p, getBoardArticleFilePath db.home b (DB.articleName (draw j).1 (draw j).2) = .ok p ∧
      fs.createExcl db.cwd p = .ok D ∧ r = .ok (.record (DB.newArticleRecord (DB.articleName (draw j).1 (draw j).2) o d t)) := by
  induction fuel with
  | zero =>
    intro k rs D r h
    obtain ⟨h1, h2⟩ := under_stop h
    exact .inr (.inl ⟨h2, h1⟩)
  | succ fuel ih =>
    intro k rs D r h
    have hn : ∀ rs, Job.playUnder db.cwd rs fs (Job.tryNames db b o d t draw fuel (k + 1)) = (D, .done r) →
        (r = .panic ∧ b = [] ∧ D = fs) ∨ (r = .diverge ∧ D = fs) ∨
        ∃ j, k ≤ j ∧ j < k + (fuel + 1) ∧ ∃ p, getBoardArticleFilePath db.home b (DB.articleName (draw j).1 (draw j).2) = .ok p ∧
          fs.createExcl db.cwd p = .ok D ∧ r = .ok (.record (DB.newArticleRecord (DB.articleName (draw j).1 (draw j).2) o d t)) := by
      intro rs h
      rcases ih (k + 1) rs D r h with h1 | h1 | ⟨j, h1, h2, h3⟩
      · exact .inl h1
      · exact .inr (.inl h1)
      · exact .inr (.inr ⟨j, by omega, by omega, h3⟩)
    cases hb : b with
    | nil =>
      subst hb
      rw [Job.tryNames] at h
      simp only [getBoardArticleFilePath, firstByte] at h
      change Job.playUnder db.cwd rs fs (.done .panic) = _ at h
      obtain ⟨h1, h2⟩ := under_stop h
      exact .inl ⟨h2, rfl, h1⟩
    | cons x b' =>
      rw [← hb]
      have hp := articlePath_ok (home := db.home) (board := b) (by rw [hb]; simp) (DB.articleName (draw k).1 (draw k).2)
      rw [Job.tryNames] at h
      simp only [hp, Job.orStop] at h
      cases rs with
      | nil => cases h
      | cons y rs =>
        obtain ⟨n, y⟩ := y
        cases y with
        | some z => exact hn rs h
        | none =>
          simp only [Job.playUnder, Job.stepUnder, Job.step] at h
          cases hc : fs.createExcl db.cwd (boardDir db.home b ++ slash :: DB.articleName (draw k).1 (draw k).2) with
          | ok fs1 =>
            simp only [hc] at h
            obtain ⟨h1, h2⟩ := under_stop h
            subst h1
            exact .inr (.inr ⟨k, Nat.le_refl _, by omega, _, hp, hc, h2⟩)
          | _ =>
            simp only [hc] at h
            exact hn rs h

/-- **C139, claiming a name.** It answers with a name whose file is new, and that file is all that has changed; or it crashes on an empty board name; or it
is still looking. It never answers with a refusal. -/
theorem C139_create (db : DB) (c : Codec) (fs : FS) (b o d t : Bytes) (draw : Nat → Int × Fin 4096) (fuel : Nat) (rs : List (Nat × Option String))
    (D : FS) (r : Res Answer) (h : (Call.createArticle b o d t draw fuel).under db c fs rs = (D, some r)) :
    (r = .panic ∧ b = [] ∧ D = fs) ∨ (r = .diverge ∧ D = fs) ∨
    ∃ j p, j < fuel ∧ getBoardArticleFilePath db.home b (DB.articleName (draw j).1 (draw j).2) = .ok p ∧
      fs.createExcl db.cwd p = .ok D ∧ r = .ok (.record (DB.newArticleRecord (DB.articleName (draw j).1 (draw j).2) o d t)) := by
  rw [under_eq] at h
  rcases tryNames_under db fs b o d t draw fuel 0 rs D r h with h1 | h1 | ⟨j, _, h2, p, h3, h4, h5⟩
  · exact .inl h1
  · exact .inr (.inl h1)
  · exact .inr (.inr ⟨j, p, by omega, h3, h4, h5⟩)

/-- **C139, a board that may not be written to.** As long as the system refuses, the search for a free name goes on: there is no answer. -/
theorem C139_create_hangs (db : DB) (c : Codec) (fs : FS) (b o d t : Bytes) (hb : b ≠ []) (draw : Nat → Int × Fin 4096) (fuel : Nat)
    (rs : List (Nat × Option String)) (hr : ∀ x ∈ rs, x.2 ≠ none) :
    (Call.createArticle b o d t draw fuel).under db c fs rs = (fs, if rs.length < fuel then none else some .diverge) := by
  have go : ∀ (fuel k : Nat) (rs : List (Nat × Option String)), (∀ x ∈ rs, x.2 ≠ none) →
      Job.playUnder db.cwd rs fs (Job.tryNames db b o d t draw fuel k) = (fs, Job.tryNames db b o d t draw (fuel - rs.length) (k + min fuel rs.length)) := by
    intro fuel
    induction fuel with
    | zero => intro k rs _; simp only [Job.tryNames, under_done, Nat.zero_sub]
    | succ fuel ih =>
      intro k rs h
      cases rs with
      | nil => rfl
      | cons y rs =>
        obtain ⟨n, y⟩ := y
        cases y with
        | none => exact absurd rfl (h (n, none) (by simp))
        | some z =>
          have := ih (k + 1) rs (fun x hx => h x (by simp [hx]))
          have hp := articlePath_ok (home := db.home) hb (DB.articleName (draw k).1 (draw k).2)
          have e : Job.playUnder db.cwd ((n, some z) :: rs) fs (Job.tryNames db b o d t draw (fuel + 1) k) =
              Job.playUnder db.cwd rs fs (Job.tryNames db b o d t draw fuel (k + 1)) := by
            rw [Job.tryNames]
            simp only [hp, Job.orStop, Job.playUnder, Job.stepUnder]
          rw [e, this, List.length_cons, Nat.add_sub_add_right, show k + 1 + min fuel rs.length = k + min (fuel + 1) (rs.length + 1) by omega]
  unfold Call.under
  rw [Job.start, go fuel 0 rs hr]
  by_cases hl : rs.length < fuel
  · obtain ⟨m, hm⟩ : ∃ m, fuel - rs.length = m + 1 := ⟨fuel - rs.length - 1, by omega⟩
    rw [hm, if_pos hl, Job.tryNames]
    simp only [articlePath_ok (home := db.home) hb, Job.orStop]
  · rw [show fuel - rs.length = 0 by omega, if_neg hl]
    rfl

/-! ## The full claim is false -/

/-- **C139 is false of the code for reading drafts**: a draft with a text is answered as an empty one. -/
theorem C139_draft_refuted : ¬ Spec.RefusalsTold (fun op => ∃ u d, op = .readDraft u d) := by
  intro h
  rcases h sampleDB asciiCodec draftFS (.readDraft (ascii "Ab") (ascii "1")) [(0, some "permission denied")] _ _ ⟨_, _, rfl⟩
    (by rintro e ⟨n, hn⟩; cases List.mem_singleton.mp hn; decide) (C139_draft_empty _ _ _ _ _ (by decide) 0 "permission denied") with ⟨h1, _⟩ | ⟨e, _, h1, _⟩
  · have : sampleDB.getUserDraft draftFS (ascii "Ab") (ascii "1") = .ok (ascii "old") := by decide +kernel
    simp only [Call.exec, reads, this, Res.ok_bind] at h1
    exact absurd (Answer.bytes.inj (Res.ok.inj h1)) (by decide)
  · cases h1

/-- **C139 is false of the code for saving drafts**: the call answers that it was refused, and the old text is gone. -/
theorem C139_save_refuted : ¬ Spec.RefusalsTold (fun op => ∃ u d x, op = .writeDraft u d x) := by
  intro h
  have e : (Call.writeDraft (ascii "Ab") (ascii "1") (ascii "new")).under sampleDB asciiCodec draftFS [(0, none), (0, some "input/output error")] =
      (draftFS.set (at_ sampleDB oldDraft) (.file []), some (.err "input/output error")) := rfl
  rcases h sampleDB asciiCodec draftFS _ _ _ _ ⟨_, _, _, rfl⟩ (by
    rintro e ⟨n, hn⟩
    simp only [List.mem_cons, Prod.mk.injEq, List.not_mem_nil, or_false] at hn
    rcases hn with ⟨_, hn⟩ | ⟨_, hn⟩ <;> cases hn
    decide) e with ⟨h1, _⟩ | ⟨e, _, _, h1⟩
  · have : sampleDB.writeUserDraft draftFS (ascii "Ab") (ascii "1") (ascii "new") = .ok (draftFS.set (at_ sampleDB oldDraft) (.file (ascii "new"))) := rfl
    simp only [Call.exec, this, writes] at h1
    cases h1
  · have := h1 (at_ sampleDB oldDraft)
    exact absurd this (by decide +kernel)

/-- A disk with a list of articles that is empty. -/
def emptyListFS : FS := sampleFS.set (at_ sampleDB (.articleIndex (ascii "S"))) (.file [])

/-- **C139 is false of the code for lists**: a read that is refused once becomes an article without a name. -/
theorem C139_list_refuted : ¬ Spec.RefusalsTold (fun op => ∃ b, op = .listArticles b) := by
  intro h
  obtain ⟨rs, D, h1, h2⟩ := (C139_lists_exact sampleDB asciiCodec emptyListFS (.listArticles (ascii "S")) _ [] rfl (by decide +kernel) "input/output error"
    (by decide) (.articles [FileHeader.parse asciiCodec (zeros 128)])).mpr ⟨[zeros 128], fun y hy => List.mem_singleton.mp hy, rfl⟩
  rcases h _ _ _ _ rs D _ ⟨_, rfl⟩ (fun e he => (h1 e he).symm ▸ (by decide)) h2 with ⟨h3, _⟩ | ⟨e, _, h3, _⟩
  · have : sampleDB.readArticleRecords asciiCodec emptyListFS (ascii "S") = .ok [] := by decide +kernel
    simp only [Call.exec, reads, this, Res.ok_bind] at h3
    cases h3
  · cases h3

/-- **C139 is false of the code.** -/
theorem C139_refuted : ¬ Spec.RefusalsTold (fun _ => True) :=
  fun h => C139_list_refuted fun db c fs op rs D r _ => h db c fs op rs D r trivial

/-! ## Examples -/

/-- Non-vacuity of `C139_partial`: an article is read after two reads; the third is refused, and the answer is the error. -/
example : (Call.readArticle (ascii "S") (ascii "M.1")).under mixedDB mixedCodec mixedFS [(0, none), (2, none), (2, none), (2, some "input/output error")] =
    (mixedFS, some (.err "input/output error")) := rfl
example : (Call.readArticle (ascii "S") (ascii "M.1")).under mixedDB mixedCodec mixedFS [(0, none), (2, none), (9, none), (0, none)] =
    (mixedFS, some (.ok (.bytes (ascii "hello")))) := rfl

/-- Blank records may stand before, between and after the right ones. -/
example : Interspersed 0 [1, 2] [0, 1, 0, 0, 2, 0] := ⟨1, _, rfl, 2, _, rfl, fun y hy => List.mem_singleton.mp hy⟩
example : ¬ Interspersed 0 [1, 2] [0, 2, 1] := by
  rintro ⟨n, rest, h, m, rest', h', _⟩
  match n, h with
  | 0, h => cases h
  | 1, h => cases h
  | n + 2, h => cases h

/-- The name of the board that the first entry of a folder is about. -/
def firstName : Res FavFolder → Option Bytes
  | .ok ⟨_, _, _, _, _, _, _, .mk _ _ (.board _ _ _ name) :: _⟩ => some name
  | _ => none

/-- A favourite board loses its name when a blank board is read before it. -/
example : firstName ((FavFolder.mk 1 0 1 0 0 0 0 [.mk 1 0 (.board 1 0 0 [])]).resolve
      [BoardHeader.parse asciiCodec (ascii "SYSOP" ++ zeros 251)]) = some (ascii "SYSOP") ∧
    firstName ((FavFolder.mk 1 0 1 0 0 0 0 [.mk 1 0 (.board 1 0 0 [])]).resolve
      [BoardHeader.parse asciiCodec (zeros 256), BoardHeader.parse asciiCodec (ascii "SYSOP" ++ zeros 251)]) = some [] := by
  decide +kernel

end Verif
