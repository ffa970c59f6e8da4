import Verif.Spec.Progress
import Verif.Proofs.Script
/-!
# Helper lemmas for the number of steps of a call
-/

namespace Verif
open Spec

/-- Whatever the system calls return, the client has its answer within `n` of them, if files at the places `F` hold at most `L` bytes and there are no
directories at the places `G`. -/
inductive Finishes (cwd : Path) (F G : Path → Prop) (L : Nat) : Nat → Job → Prop
  | done (n : Nat) (r : Res Answer) : Finishes cwd F G L n (.done r)
  | stat {n : Nat} {p : Bytes} {k : Bool → Job} (h : ∀ b, Finishes cwd F G L n (k b)) : Finishes cwd F G L (n + 1) (.stat p k)
  | openRead {n : Nat} {p : Bytes} {k : Res Path → Job} (h : ∀ r, (∀ l, r = .ok l → l = resolve cwd p) → Finishes cwd F G L n (k r)) :
    Finishes cwd F G L (n + 1) (.openRead p k)
  | openWrite {n : Nat} {p : Bytes} {k : Res Path → Job} (h : ∀ r, Finishes cwd F G L n (k r)) : Finishes cwd F G L (n + 1) (.openWrite p k)
  | openMake {n : Nat} {p : Bytes} {k : Res Path → Job} (h : ∀ r, Finishes cwd F G L n (k r)) : Finishes cwd F G L (n + 1) (.openMake p k)
  | openTrunc {n : Nat} {p : Bytes} {k : Res Path → Job} (h : ∀ r, Finishes cwd F G L n (k r)) : Finishes cwd F G L (n + 1) (.openTrunc p k)
  | openExcl {n : Nat} {p : Bytes} {k : Bool → Job} (h : ∀ b, Finishes cwd F G L n (k b)) : Finishes cwd F G L (n + 1) (.openExcl p k)
  | read {n m : Nat} {l : Path} {size : Nat} {got : List Bytes} {pos : Nat} {k : Res (List Bytes) → Job} (hf : F l) (hg : size ≠ 0 → G l)
    (h : ∀ r, Finishes cwd F G L n (k r)) (hm : n + 1 + (L - pos) ≤ m) : Finishes cwd F G L m (.read l size got pos k)
  | append {n : Nat} {l : Path} {bs : Bytes} {k : Job} (h : Finishes cwd F G L n k) : Finishes cwd F G L (n + 1) (.append l bs k)
  | put {n : Nat} {l : Path} {bs : Bytes} {k : Job} (h : Finishes cwd F G L n k) : Finishes cwd F G L (n + 1) (.put l bs k)
  | unlink {n : Nat} {p : Bytes} {k : Res Unit → Job} (h : ∀ r, Finishes cwd F G L n (k r)) : Finishes cwd F G L (n + 1) (.unlink p k)

section
variable {cwd : Path} {F G : Path → Prop} {L : Nat}

theorem ends_orStop {α : Type} {n : Nat} {k : α → Job} {x : Res α} (h : ∀ a, x = .ok a → Finishes cwd F G L n (k a)) :
    Finishes cwd F G L n (Job.orStop k x) := by
  cases x with
  | ok a => exact h a rfl
  | err e => exact .done _ _
  | panic => exact .done _ _
  | diverge => exact .done _ _

theorem slice_pos {d : Bytes} {pos size n : Nat} (hp : pos < d.length) :
    0 < (slice d pos (pos + if size = 0 then n + 1 else size)).length := by
  simp only [slice, List.length_drop, List.length_take]
  by_cases hz : size = 0
  · rw [if_pos hz]; omega
  · rw [if_neg hz]; omega

theorem opened_resolve {fs : FS} {p : Bytes} {w : Bool} {l : Path} (h : Job.opened fs cwd p w = .ok l) : l = resolve cwd p := by
  unfold Job.opened at h
  cases hl : fs.lookup cwd p with
  | ok l' =>
    rw [hl] at h
    have e := FS.lookup_eq hl
    have h : (match fs.get l' with
      | none => .err "no such file or directory"
      | some .dir => if w then .err "is a directory" else .ok l'
      | some (.file _) => .ok l') = Res.ok l := h
    split at h
    · cases h
    · split at h
      · cases h
      · cases h; exact e
    · cases h; exact e
  | err e => rw [hl] at h; cases h
  | panic => rw [hl] at h; cases h
  | diverge => rw [hl] at h; cases h

/-- A system call brings the answer nearer. -/
theorem ends_step' {m : Nat} {j : Job} (h : Finishes cwd F G L m j) (hd : ∀ r, j ≠ .done r) (fs : FS) (n : Nat)
    (hF : ∀ l, F l → ∀ d, fs.get l = some (.file d) → d.length ≤ L) (hG : ∀ l, G l → fs.get l ≠ some .dir) :
    ∃ m', m' < m ∧ Finishes cwd F G L m' (j.step cwd fs n).2 := by
  cases h with
  | done n r => exact absurd rfl (hd r)
  | @stat m p k h => exact ⟨m, by omega, h _⟩
  | @openRead m p k h => exact ⟨m, by omega, h _ fun l e => opened_resolve e⟩
  | @openWrite m p k h => exact ⟨m, by omega, h _⟩
  | @openMake m p k h => refine ⟨m, by omega, ?_⟩; simp only [Job.step]; split <;> exact h _
  | @openTrunc m p k h => refine ⟨m, by omega, ?_⟩; simp only [Job.step]; split <;> exact h _
  | @openExcl m p k h => refine ⟨m, by omega, ?_⟩; simp only [Job.step]; split <;> exact h _
  | @read i _ l size got pos k hf hg h hm =>
    simp only [Job.step]
    split
    · rename_i d hl
      have hlen := hF l hf d hl
      by_cases hp : pos < d.length
      · rw [if_pos hp]
        have := slice_pos (size := size) (n := n) hp
        exact ⟨m - 1, by omega, .read hf hg h (by omega)⟩
      · rw [if_neg hp]
        exact ⟨i, by omega, h _⟩
    · rename_i hl
      by_cases hz : size = 0
      · rw [if_pos hz]
        exact ⟨i, by omega, h _⟩
      · exact absurd hl (hG l (hg hz))
    · exact ⟨i, by omega, h _⟩
  | @append m l bs k h => refine ⟨m, by omega, ?_⟩; simp only [Job.step]; split <;> exact h
  | @put m l bs k h => refine ⟨m, by omega, ?_⟩; simp only [Job.step]; split <;> exact h
  | @unlink m p k h => refine ⟨m, by omega, ?_⟩; simp only [Job.step]; split <;> exact h _

theorem ends_readList {α : Type} {n m : Nat} {p : Bytes} {size : Nat} {parse : Bytes → Res α} {k : List α → Job}
    (hf : F (resolve cwd p)) (hg : size ≠ 0 → G (resolve cwd p)) (h : ∀ x, Finishes cwd F G L n (k x)) (hm : m = n + L + 2) :
    Finishes cwd F G L m (Job.readList p size parse k) := by
  subst hm
  unfold Job.readList
  refine .openRead fun r hr => ends_orStop fun l e => ?_
  rw [hr l e]
  exact .read (n := n) hf hg (fun r => ends_orStop fun got _ => ends_orStop fun x _ => h x) (by omega)

theorem ends_readWhole {n m : Nat} {p : Bytes} {k : Bytes → Job} (hf : F (resolve cwd p)) (h : ∀ x, Finishes cwd F G L n (k x)) (hm : m = n + L + 2) :
    Finishes cwd F G L m (Job.readWhole p k) := by
  subst hm
  unfold Job.readWhole
  refine .openRead fun r hr => ends_orStop fun l e => ?_
  rw [hr l e]
  exact .read (n := n) hf (fun h => absurd rfl h) (fun r => ends_orStop fun got _ => h _) (by omega)

end

theorem ends_tryNames {cwd : Path} {F G : Path → Prop} {L : Nat} {db : DB} {b o d t : Bytes} {draw : Nat → Int × Fin 4096} :
    ∀ fuel k, Finishes cwd F G L fuel (Job.tryNames db b o d t draw fuel k) := by
  intro fuel
  induction fuel with
  | zero => intro k; exact .done _ _
  | succ fuel ih =>
    intro k
    unfold Job.tryNames
    exact ends_orStop fun p _ => .openExcl fun b => match b with
      | true => .done _ _
      | false => ih (k + 1)

theorem ends_start (db : DB) (c : Codec) (L : Nat) (op : Call) :
    Finishes db.cwd (fun l => ∃ p, Reading db op p ∧ l = resolve db.cwd p) (fun l => ∃ p, ReadingList db op p ∧ l = resolve db.cwd p) L
      (patience L op - 2) (Job.start db c op) := by
  cases op with
  | readUsers =>
    unfold Job.start
    exact ends_orStop fun p e => ends_readList (n := 0) ⟨p, e, rfl⟩ (fun _ => ⟨p, e, rfl⟩) (fun _ => .done _ _) (by simp only [patience]; omega)
  | readFavourites u =>
    unfold Job.start
    refine ends_orStop fun p e => ?_
    refine .stat (n := 2 * L + 4) fun b => ?_
    cases b with
    | false => exact .done _ _
    | true =>
      refine ends_readWhole (n := L + 2) ⟨p, Or.inl e, rfl⟩ (fun data => ends_orStop fun fav _ => ends_orStop fun bp e2 => ?_) (by omega)
      exact ends_readList (n := 0) ⟨bp, Or.inr e2, rfl⟩ (fun _ => ⟨bp, e2, rfl⟩) (fun br => ends_orStop fun _ _ => .done _ _) (by omega)
  | readBoards =>
    unfold Job.start
    exact ends_orStop fun p e => ends_readList (n := 0) ⟨p, e, rfl⟩ (fun _ => ⟨p, e, rfl⟩) (fun _ => .done _ _) (by simp only [patience]; omega)
  | listArticles b =>
    unfold Job.start
    refine ends_orStop fun p e => ?_
    refine .openRead (n := L + 1) fun r hr => ?_
    cases r with
    | ok l =>
      rw [hr l rfl]
      exact .read (n := 0) ⟨p, e, rfl⟩ (fun _ => ⟨p, e, rfl⟩) (fun r => ends_orStop fun got _ => ends_orStop fun x _ => .done _ _) (by omega)
    | err e => exact .done _ _
    | panic => exact .done _ _
    | diverge => exact .done _ _
  | listTreasure b ds =>
    unfold Job.start
    exact ends_orStop fun p e => ends_readList (n := 0) ⟨p, e, rfl⟩ (fun _ => ⟨p, e, rfl⟩) (fun _ => .done _ _) (by simp only [patience]; omega)
  | readArticle b f =>
    unfold Job.start
    exact ends_orStop fun p e => ends_readWhole (n := 0) ⟨p, e, rfl⟩ (fun _ => .done _ _) (by simp only [patience]; omega)
  | readTreasure b ds f =>
    unfold Job.start
    exact ends_orStop fun p e => ends_readWhole (n := 0) ⟨p, e, rfl⟩ (fun _ => .done _ _) (by simp only [patience]; omega)
  | addBoard r =>
    unfold Job.start
    exact ends_orStop fun p _ => .openMake fun r => ends_orStop fun l _ => .append (.done 0 _)
  | createArticle b o d t draw fuel => exact ends_tryNames fuel 0
  | addRecord b r =>
    unfold Job.start
    exact ends_orStop fun p _ => .openMake fun r => ends_orStop fun l _ => .append (.done 0 _)
  | writeArticle b f x =>
    unfold Job.start
    exact ends_orStop fun p _ => .openMake fun r => ends_orStop fun l _ => .put (.done 0 _)
  | appendArticle b f x =>
    unfold Job.start
    exact ends_orStop fun p _ => .openWrite fun r => ends_orStop fun l _ => .append (.done 0 _)
  | readDraft u d =>
    unfold Job.start
    refine ends_orStop fun p e => ?_
    refine .stat (n := L + 2) fun b => ?_
    cases b with
    | false => exact .done _ _
    | true =>
      exact ends_readWhole (n := 0) ⟨p, e, rfl⟩ (fun _ => .done _ _) (by omega)
  | deleteDraft u d =>
    unfold Job.start
    exact ends_orStop fun p _ => .unlink fun r => ends_orStop fun _ _ => .done 0 _
  | writeDraft u d x =>
    unfold Job.start
    exact ends_orStop fun p _ => .openTrunc fun r => ends_orStop fun l _ => .put (.done 0 _)

/-! ## Clients -/

theorem house_call {db : DB} {c : Codec} {s : House} {p n : Nat} {op : Call} {next : Res Answer → Script} (h : s.sessions p = .idle (.make op next)) :
    s.step db c p n = (s.setSession s.fs p (.busy (Job.start db c op) next), [.call p op]) := by simp only [House.step, h]

theorem house_ret {db : DB} {c : Codec} {s : House} {p n : Nat} {r : Res Answer} {next : Res Answer → Script} (h : s.sessions p = .busy (.done r) next) :
    s.step db c p n = (s.setSession s.fs p (.idle (next r)), [.ret p r]) := by simp only [House.step, h]

theorem house_work {db : DB} {c : Codec} {s : House} {p n : Nat} {j : Job} {next : Res Answer → Script} (h : s.sessions p = .busy j next)
    (hd : ∀ r, j ≠ .done r) :
    s.step db c p n = (s.setSession (j.step db.cwd s.fs n).1 p (.busy (j.step db.cwd s.fs n).2 next), []) := by
  cases j with
  | done r => exact absurd rfl (hd r)
  | _ => simp only [House.step, h]

/-- Nobody but `p` changes where `p` stands. -/
theorem house_other (db : DB) (c : Codec) (s : House) {p q : Nat} (n : Nat) (h : q ≠ p) : (s.step db c p n).1.sessions q = s.sessions q := by
  cases hs : s.sessions p with
  | idle sc =>
    cases sc with
    | stop => simp only [House.step, hs]
    | make op next => rw [house_call hs]; exact setSession_other _ _ _ h
  | busy j next =>
    by_cases hd : ∃ r, j = .done r
    · obtain ⟨r, rfl⟩ := hd
      rw [house_ret hs]; exact setSession_other _ _ _ h
    · rw [house_work hs fun r e => hd ⟨r, e⟩]; exact setSession_other _ _ _ h

theorem run_cons (db : DB) (c : Codec) (s : House) (x : Nat × Nat) (sched : List (Nat × Nat)) :
    s.run db c (x :: sched) = (((s.step db c x.1 x.2).1.run db c sched).1, (s.step db c x.1 x.2).2 ++ ((s.step db c x.1 x.2).1.run db c sched).2) := rfl

theorem stepsOf_self (p n : Nat) (sched : List (Nat × Nat)) : stepsOf p ((p, n) :: sched) = stepsOf p sched + 1 := by
  simp [stepsOf]

theorem stepsOf_other {p q : Nat} (n : Nat) (sched : List (Nat × Nat)) (h : q ≠ p) : stepsOf p ((q, n) :: sched) = stepsOf p sched := by
  simp [stepsOf, h]

/-- A client in the middle of a call. -/
theorem busy_returns {db : DB} {c : Codec} {F G : Path → Prop} {L : Nat} (sched : List (Nat × Nat)) :
    ∀ (s : House) (p m : Nat) (j : Job) (next : Res Answer → Script), s.sessions p = .busy j next → Finishes db.cwd F G L m j → m + 1 ≤ stepsOf p sched →
      (∀ k, (∀ l, F l → ∀ d, (s.run db c (sched.take k)).1.fs.get l = some (.file d) → d.length ≤ L) ∧
        ∀ l, G l → (s.run db c (sched.take k)).1.fs.get l ≠ some .dir) →
      ∃ r, .ret p r ∈ (s.run db c sched).2 := by
  induction sched with
  | nil => intro s p m j next _ _ hm; simp [stepsOf] at hm
  | cons x sched ih =>
    intro s p m j next hs he hm hw
    obtain ⟨q, n⟩ := x
    have hw' : ∀ k, (∀ l, F l → ∀ d, ((s.step db c q n).1.run db c (sched.take k)).1.fs.get l = some (.file d) → d.length ≤ L) ∧
        ∀ l, G l → ((s.step db c q n).1.run db c (sched.take k)).1.fs.get l ≠ some .dir := fun k => hw (k + 1)
    rw [run_cons]
    by_cases e : q = p
    · subst e
      rw [stepsOf_self] at hm
      by_cases hd : ∃ r, j = .done r
      · obtain ⟨r, rfl⟩ := hd
        refine ⟨r, ?_⟩
        rw [house_ret hs]
        exact List.mem_append_left _ (List.mem_singleton.mpr rfl)
      · have hd' : ∀ r, j ≠ .done r := fun r e => hd ⟨r, e⟩
        obtain ⟨m', hlt, he'⟩ := ends_step' he hd' s.fs n (hw 0).1 (hw 0).2
        have e := house_work (db := db) (c := c) (n := n) hs hd'
        obtain ⟨r, hr⟩ := ih (s.step db c q n).1 q m' (j.step db.cwd s.fs n).2 next (by rw [e]; exact setSession_self _ _ _ _) he' (by omega) hw'
        exact ⟨r, List.mem_append_right _ hr⟩
    · rw [stepsOf_other _ _ e] at hm
      obtain ⟨r, hr⟩ := ih (s.step db c q n).1 p m j next (by rw [house_other db c s n (Ne.symm e)]; exact hs) he hm hw'
      exact ⟨r, List.mem_append_right _ hr⟩

/-- A client about to make a call. -/
theorem idle_returns {db : DB} {c : Codec} {F G : Path → Prop} {L m : Nat} {op : Call} (he : Finishes db.cwd F G L m (Job.start db c op)) (sched : List (Nat × Nat)) :
    ∀ (s : House) (p : Nat) (next : Res Answer → Script), s.sessions p = .idle (.make op next) → m + 2 ≤ stepsOf p sched →
      (∀ k, (∀ l, F l → ∀ d, (s.run db c (sched.take k)).1.fs.get l = some (.file d) → d.length ≤ L) ∧
        ∀ l, G l → (s.run db c (sched.take k)).1.fs.get l ≠ some .dir) →
      ∃ r, .ret p r ∈ (s.run db c sched).2 := by
  induction sched with
  | nil => intro s p next _ hm; simp [stepsOf] at hm
  | cons x sched ih =>
    intro s p next hs hm hw
    obtain ⟨q, n⟩ := x
    rw [run_cons]
    by_cases e : q = p
    · subst e
      rw [stepsOf_self] at hm
      have e := house_call (db := db) (c := c) (n := n) hs
      obtain ⟨r, hr⟩ := busy_returns sched (s.step db c q n).1 q m _ next (by rw [e]; exact setSession_self _ _ _ _) he (by omega) fun k => hw (k + 1)
      exact ⟨r, List.mem_append_right _ hr⟩
    · rw [stepsOf_other _ _ e] at hm
      obtain ⟨r, hr⟩ := ih (s.step db c q n).1 p next (by rw [house_other db c s n (Ne.symm e)]; exact hs) hm fun k => hw (k + 1)
      exact ⟨r, List.mem_append_right _ hr⟩

/-! ## The names that are tried -/

theorem tries_return {db : DB} {c : Codec} {b o d t : Bytes} {draw : Nat → Int × Fin 4096} {k : Nat} (sched : List (Nat × Nat)) :
    ∀ (s : House) (p i fuel : Nat) (next : Res Answer → Script), s.sessions p = .busy (Job.tryNames db b o d t draw fuel i) next →
      i ≤ k → k < i + fuel → k - i + 2 ≤ stepsOf p sched →
      (∀ x, getBoardArticleFilePath db.home b (DB.articleName (draw k).1 (draw k).2) = .ok x →
        ∀ j, stepsOf p (sched.take j) = k - i → ∃ fs', (s.run db c (sched.take j)).1.fs.createExcl db.cwd x = .ok fs') →
      ∃ r, .ret p r ∈ (s.run db c sched).2 := by
  induction sched with
  | nil => intro s p i fuel next _ _ _ hm; simp [stepsOf] at hm
  | cons x sched ih =>
    intro s p i fuel next hs hi hk hm hw
    obtain ⟨q, n⟩ := x
    rw [run_cons]
    by_cases e : q = p
    · subst e
      rw [stepsOf_self] at hm
      cases fuel with
      | zero => omega
      | succ fuel =>
        have done : ∀ r, Job.tryNames db b o d t draw (fuel + 1) i = .done r → ∃ r, .ret q r ∈ (s.step db c q n).2 ++ ((s.step db c q n).1.run db c sched).2 := by
          intro r e
          rw [e] at hs
          rw [house_ret hs]
          exact ⟨r, List.mem_append_left _ (List.mem_singleton.mpr rfl)⟩
        cases hp : getBoardArticleFilePath db.home b (DB.articleName (draw i).1 (draw i).2) with
        | err e => exact done (.err e) (by simp only [Job.tryNames, hp, Job.orStop])
        | panic => exact done .panic (by simp only [Job.tryNames, hp, Job.orStop])
        | diverge => exact done .diverge (by simp only [Job.tryNames, hp, Job.orStop])
        | ok x =>
          have e : Job.tryNames db b o d t draw (fuel + 1) i = .openExcl x fun y => match y with
              | true => .done (.ok (.record (DB.newArticleRecord (DB.articleName (draw i).1 (draw i).2) o d t)))
              | false => Job.tryNames db b o d t draw fuel (i + 1) := by
            rw [Job.tryNames]
            simp only [hp, Job.orStop]
            congr 1
          rw [e] at hs
          have hw1 := house_work (db := db) (c := c) (n := n) hs (fun r h => by cases h)
          have made : ∀ fs', s.fs.createExcl db.cwd x = .ok fs' →
              ∃ r, .ret q r ∈ (s.step db c q n).2 ++ ((s.step db c q n).1.run db c sched).2 := by
            intro fs' hf
            have hs1 : (s.step db c q n).1.sessions q = .busy (.done (.ok (.record (DB.newArticleRecord (DB.articleName (draw i).1 (draw i).2) o d t)))) next := by
              rw [hw1, setSession_self]
              simp only [Job.step, hf]
            obtain ⟨r, hr⟩ := busy_returns (c := c) (F := fun _ => False) (G := fun _ => False) (L := 0) sched (s.step db c q n).1 q 0 _ next hs1 (.done 0 _) (by omega)
              fun k => ⟨fun l h => h.elim, fun l h => h.elim⟩
            exact ⟨r, List.mem_append_right _ hr⟩
          by_cases hik : i = k
          · subst hik
            obtain ⟨fs', hf⟩ := hw x hp 0 (by simp [stepsOf])
            exact made fs' hf
          · have next_try : (∀ fs', s.fs.createExcl db.cwd x ≠ .ok fs') →
                ∃ r, .ret q r ∈ (s.step db c q n).2 ++ ((s.step db c q n).1.run db c sched).2 := by
              intro hf
              have hs1 : (s.step db c q n).1.sessions q = .busy (Job.tryNames db b o d t draw fuel (i + 1)) next := by
                rw [hw1, setSession_self]
                simp only [Job.step]
              obtain ⟨r, hr⟩ := ih (s.step db c q n).1 q (i + 1) fuel next hs1 (by omega) (by omega) (by omega) fun x hx j hj =>
                hw x hx (j + 1) (by rw [List.take_succ_cons, stepsOf_self, hj]; omega)
              exact ⟨r, List.mem_append_right _ hr⟩
            cases hf : s.fs.createExcl db.cwd x with
            | ok fs' => exact made fs' hf
            | err e => exact next_try fun fs' h => by rw [hf] at h; cases h
            | panic => exact next_try fun fs' h => by rw [hf] at h; cases h
            | diverge => exact next_try fun fs' h => by rw [hf] at h; cases h
    · rw [stepsOf_other _ _ e] at hm
      obtain ⟨r, hr⟩ := ih (s.step db c q n).1 p i fuel next (by rw [house_other db c s n (Ne.symm e)]; exact hs) hi hk hm fun x hx j hj =>
        hw x hx (j + 1) (by rw [List.take_succ_cons, stepsOf_other _ _ e, hj])
      exact ⟨r, List.mem_append_right _ hr⟩

theorem create_returns {db : DB} {c : Codec} {b o d t : Bytes} {draw : Nat → Int × Fin 4096} {fuel k : Nat} (hk : k < fuel) (sched : List (Nat × Nat)) :
    ∀ (s : House) (p : Nat) (next : Res Answer → Script), s.sessions p = .idle (.make (.createArticle b o d t draw fuel) next) →
      k + 3 ≤ stepsOf p sched →
      (∀ x, getBoardArticleFilePath db.home b (DB.articleName (draw k).1 (draw k).2) = .ok x →
        ∀ j, stepsOf p (sched.take j) = k + 1 → ∃ fs', (s.run db c (sched.take j)).1.fs.createExcl db.cwd x = .ok fs') →
      ∃ r, .ret p r ∈ (s.run db c sched).2 := by
  induction sched with
  | nil => intro s p next _ hm; simp [stepsOf] at hm
  | cons x sched ih =>
    intro s p next hs hm hw
    obtain ⟨q, n⟩ := x
    rw [run_cons]
    by_cases e : q = p
    · subst e
      rw [stepsOf_self] at hm
      have e := house_call (db := db) (c := c) (n := n) hs
      obtain ⟨r, hr⟩ := tries_return (k := k) sched (s.step db c q n).1 q 0 fuel next (by rw [e]; exact setSession_self _ _ _ _) (by omega) (by omega) (by omega)
        fun x hx j hj => hw x hx (j + 1) (by rw [List.take_succ_cons, stepsOf_self, hj]; omega)
      exact ⟨r, List.mem_append_right _ hr⟩
    · rw [stepsOf_other _ _ e] at hm
      obtain ⟨r, hr⟩ := ih (s.step db c q n).1 p next (by rw [house_other db c s n (Ne.symm e)]; exact hs) hm fun x hx j hj =>
        hw x hx (j + 1) (by rw [List.take_succ_cons, stepsOf_other _ _ e, hj])
      exact ⟨r, List.mem_append_right _ hr⟩

/-! ## Schedules without an end -/

theorem ends_mono {cwd : Path} {F F' G G' : Path → Prop} {L m : Nat} {j : Job} (h : Finishes cwd F G L m j) (hF : ∀ l, F l → F' l) (hG : ∀ l, G l → G' l) :
    Finishes cwd F' G' L m j := by
  induction h with
  | done n r => exact .done n r
  | stat _ ih => exact .stat ih
  | openRead _ ih => exact .openRead ih
  | openWrite _ ih => exact .openWrite ih
  | openMake _ ih => exact .openMake ih
  | openTrunc _ ih => exact .openTrunc ih
  | openExcl _ ih => exact .openExcl ih
  | read hf hg _ hm ih => exact .read (hF _ hf) (fun h => hG _ (hg h)) ih hm
  | append _ ih => exact .append ih
  | put _ ih => exact .put ih
  | unlink _ ih => exact .unlink ih

/-- A system call gets the client further, or reads a part of a file. -/
theorem ends_step0 {cwd : Path} {G : Path → Prop} {m : Nat} {j : Job} (h : Finishes cwd (fun _ => True) G 0 m j) (hd : ∀ r, j ≠ .done r) (fs : FS) (n : Nat)
    (hG : ∀ l, G l → fs.get l ≠ some .dir) :
    (∃ m', m' < m ∧ Finishes cwd (fun _ => True) G 0 m' (j.step cwd fs n).2) ∨
    ∃ l size got pos k d got' pos', j = .read l size got pos k ∧ fs.get l = some (.file d) ∧ pos < d.length ∧ pos < pos' ∧
      j.step cwd fs n = (fs, .read l size got' pos' k) ∧ Finishes cwd (fun _ => True) G 0 m (.read l size got' pos' k) := by
  cases h with
  | done n r => exact absurd rfl (hd r)
  | @stat m p k h => exact Or.inl ⟨m, by omega, h _⟩
  | @openRead m p k h => exact Or.inl ⟨m, by omega, h _ fun l e => opened_resolve e⟩
  | @openWrite m p k h => exact Or.inl ⟨m, by omega, h _⟩
  | @openMake m p k h => refine Or.inl ⟨m, by omega, ?_⟩; simp only [Job.step]; split <;> exact h _
  | @openTrunc m p k h => refine Or.inl ⟨m, by omega, ?_⟩; simp only [Job.step]; split <;> exact h _
  | @openExcl m p k h => refine Or.inl ⟨m, by omega, ?_⟩; simp only [Job.step]; split <;> exact h _
  | @read i _ l size got pos k hf hg h hm =>
    cases hl : fs.get l with
    | none =>
      refine Or.inl ⟨i, by omega, ?_⟩
      simp only [Job.step, hl]
      exact h _
    | some nd =>
      cases nd with
      | dir =>
        by_cases hz : size = 0
        · refine Or.inl ⟨i, by omega, ?_⟩
          simp only [Job.step, hl, if_pos hz]
          exact h _
        · exact absurd hl (hG l (hg hz))
      | file d =>
        by_cases hp : pos < d.length
        · have := slice_pos (size := size) (n := n) hp
          exact Or.inr ⟨l, size, got, pos, k, d, got ++ [slice d pos (pos + if size = 0 then n + 1 else size)],
            pos + (slice d pos (pos + if size = 0 then n + 1 else size)).length, rfl, hl, hp, by omega,
            by simp only [Job.step, hl, if_pos hp], .read hf hg h (by omega)⟩
        · refine Or.inl ⟨i, by omega, ?_⟩
          simp only [Job.step, hl, if_neg hp]
          exact h _
  | @append m l bs k h => refine Or.inl ⟨m, by omega, ?_⟩; simp only [Job.step]; split <;> exact h
  | @put m l bs k h => refine Or.inl ⟨m, by omega, ?_⟩; simp only [Job.step]; split <;> exact h
  | @unlink m p k h => refine Or.inl ⟨m, by omega, ?_⟩; simp only [Job.step]; split <;> exact h _

theorem set_no_dir {fs : FS} {p q : Path} {d : Bytes} (h : (fs.set p (.file d)).get q = some .dir) : fs.get q = some .dir := by
  unfold FS.get FS.set at *
  by_cases hq : q = []
  · rw [if_pos hq]
  · rw [if_neg hq] at h ⊢
    rw [FS.lookup_cons_if] at h
    split at h
    · cases h
    · exact h

theorem del_no_dir {fs : FS} {p q : Path} (h : (fs.del p).get q = some .dir) : fs.get q = some .dir := by
  unfold FS.get FS.del at *
  by_cases hq : q = []
  · rw [if_pos hq]
  · rw [if_neg hq] at h ⊢
    rw [FS.lookup_filter] at h
    split at h
    · cases h
    · exact h

/-- No system call of a client makes a directory. -/
theorem step_no_dir {cwd : Path} {fs : FS} {n : Nat} {j : Job} {q : Path} (h : (j.step cwd fs n).1.get q = some .dir) : fs.get q = some .dir := by
  cases j with
  | done r => exact h
  | stat p k => exact h
  | openRead p k => exact h
  | openWrite p k => exact h
  | openMake p k =>
    simp only [Job.step] at h
    split at h
    · dsimp only at h
      split at h
      · exact set_no_dir h
      · exact h
    all_goals exact h
  | openTrunc p k =>
    simp only [Job.step] at h
    split at h
    · exact set_no_dir h
    all_goals exact h
  | openExcl p k =>
    simp only [Job.step] at h
    split at h
    · rename_i fs' hc
      unfold FS.createExcl at hc
      cases hl : fs.lookup cwd p with
      | ok l =>
        rw [hl] at hc
        have hc : (match fs.get l with | none => .ok (fs.set l (.file [])) | some _ => .err "file exists") = Res.ok fs' := hc
        split at hc
        · cases hc; exact set_no_dir h
        · cases hc
      | err e => rw [hl] at hc; cases hc
      | panic => rw [hl] at hc; cases hc
      | diverge => rw [hl] at hc; cases hc
    · exact h
  | read l size got pos k =>
    simp only [Job.step] at h
    split at h
    · split at h <;> exact h
    · split at h <;> exact h
    · exact h
  | append l bs k =>
    simp only [Job.step] at h
    split at h
    · exact set_no_dir h
    · exact h
  | put l bs k =>
    simp only [Job.step] at h
    split at h
    · exact set_no_dir h
    · exact h
  | unlink p k =>
    simp only [Job.step] at h
    split at h
    · rename_i fs' hc
      unfold FS.remove at hc
      cases hl : fs.lookup cwd p with
      | ok l =>
        rw [hl] at hc
        have hc : (match fs.get l with
          | none => .err "no such file or directory"
          | some (.file _) => .ok (fs.del l)
          | some .dir => if l = [] then .err "device or resource busy"
                 else if fs.hasChild l then .err "directory not empty" else .ok (fs.del l)) = Res.ok fs' := hc
        split at hc
        · cases hc
        · cases hc; exact del_no_dir h
        · split at hc
          · cases hc
          · split at hc
            · cases hc
            · cases hc; exact del_no_dir h
      | err e => rw [hl] at hc; cases hc
      | panic => rw [hl] at hc; cases hc
      | diverge => rw [hl] at hc; cases hc
    all_goals exact h

theorem house_no_dir {db : DB} {c : Codec} {s : House} {p n : Nat} {q : Path} (h : (s.step db c p n).1.fs.get q = some .dir) : s.fs.get q = some .dir := by
  cases hs : s.sessions p with
  | idle sc =>
    cases sc with
    | stop => simp only [House.step, hs] at h; exact h
    | make op next => rw [house_call hs] at h; exact h
  | busy j next =>
    by_cases hd : ∃ r, j = .done r
    · obtain ⟨r, rfl⟩ := hd
      rw [house_ret hs] at h; exact h
    · rw [house_work hs fun r e => hd ⟨r, e⟩] at h
      exact step_no_dir h

/-! ### Lists have the names of lists -/

theorem resolve_last (cwd : Path) (x name : Bytes) (h1 : slash ∉ name) (h2 : name ≠ []) (h3 : name ≠ [dot]) (h4 : name ≠ [dot, dot]) :
    (resolve cwd (x ++ slash :: name)).getLast? = some name := by
  unfold resolve
  rw [splitByte_sep, List.foldl_append, splitByte_of_not_mem h1]
  simp only [List.foldl_cons, List.foldl_nil, Path.enter]
  rw [if_neg (by rintro (h | h) <;> contradiction), if_neg h4, List.getLast?_append]
  rfl

theorem joinSlash_last (ds : List Bytes) (y : Bytes) : ∃ x, slash :: joinSlash (ds ++ [[]]) ++ y = x ++ slash :: y := by
  induction ds with
  | nil => exact ⟨[], rfl⟩
  | cons d ds ih =>
    obtain ⟨x, hx⟩ := ih
    refine ⟨slash :: d ++ x, ?_⟩
    have : joinSlash (d :: ds ++ [[]]) = d ++ slash :: joinSlash (ds ++ [[]]) := by
      cases ds <;> simp [joinSlash]
    rw [this, List.append_assoc (slash :: d), ← hx]
    simp

theorem list_name {db : DB} {op : Call} {p : Bytes} (h : ReadingList db op p) :
    (resolve db.cwd p).getLast? = some (ascii ".PASSWDS") ∨ (resolve db.cwd p).getLast? = some (ascii ".BRD") ∨
      (resolve db.cwd p).getLast? = some (ascii ".DIR") := by
  have brd : getBoardPath db.home = .ok p → (resolve db.cwd p).getLast? = some (ascii ".BRD") := by
    intro h
    cases h
    exact resolve_last _ _ (ascii ".BRD") (by decide) (by decide) (by decide) (by decide)
  cases op with
  | readUsers =>
    have h : getPasswdsPath db.home = .ok p := h
    cases h
    exact Or.inl (resolve_last _ _ (ascii ".PASSWDS") (by decide) (by decide) (by decide) (by decide))
  | readFavourites u => exact Or.inr (Or.inl (brd h))
  | readBoards => exact Or.inr (Or.inl (brd h))
  | listArticles b =>
    have h : getBoardArticlesDirectoryPath db.home b = .ok p := h
    unfold getBoardArticlesDirectoryPath at h
    cases hb : firstByte b with
    | ok ch =>
      rw [hb] at h
      cases h
      exact Or.inr (Or.inr (resolve_last _ _ (ascii ".DIR") (by decide) (by decide) (by decide) (by decide)))
    | err e => rw [hb] at h; cases h
    | panic => rw [hb] at h; cases h
    | diverge => rw [hb] at h; cases h
  | listTreasure b ds =>
    have h : getBoardTreasuresDirectoryPath db.home b ds = .ok p := h
    unfold getBoardTreasuresDirectoryPath at h
    cases hb : firstByte b with
    | ok ch =>
      rw [hb] at h
      cases h
      obtain ⟨x, hx⟩ := joinSlash_last ds (ascii ".DIR")
      have e : db.home ++ ascii "/man/boards/" ++ fmtC ch ++ ascii "/" ++ b ++ ascii "/" ++ joinSlash (ds ++ [[]]) ++ ascii ".DIR" =
          (db.home ++ ascii "/man/boards/" ++ fmtC ch ++ ascii "/" ++ b ++ x) ++ slash :: ascii ".DIR" := by
        rw [List.append_assoc _ x, ← hx]
        simp only [List.append_assoc]
        rfl
      rw [e]
      exact Or.inr (Or.inr (resolve_last _ _ (ascii ".DIR") (by decide) (by decide) (by decide) (by decide)))
    | err e => rw [hb] at h; cases h
    | panic => rw [hb] at h; cases h
    | diverge => rw [hb] at h; cases h
  | _ => exact h.elim

theorem list_no_dir {db : DB} {fs : FS} (hl : ListsAreFiles fs) {op : Call} {p : Bytes} (h : ReadingList db op p) : fs.get (resolve db.cwd p) ≠ some .dir := by
  intro hd
  obtain ⟨h1, h2, h3⟩ := hl _ hd
  rcases list_name h with h | h | h
  · exact h1 h
  · exact h2 h
  · exact h3 h

/-! ### Everybody comes to rest -/

section Endless

variable {db : DB} {c : Codec} {s0 : House} {sched : Nat → Nat × Nat}

/-- What `p` does at time `t` is nothing, or to read a part of a file. -/
def Restful (db : DB) (c : Codec) (s0 : House) (sched : Nat → Nat × Nat) (p t : Nat) : Prop :=
  (sched t).1 = p → (House.at_time db c s0 sched t).sessions p = .idle .stop ∨
    ∃ l size got pos k d got' pos' next, (House.at_time db c s0 sched t).sessions p = .busy (.read l size got pos k) next ∧
      (House.at_time db c s0 sched t).fs.get l = some (.file d) ∧ pos < d.length ∧ pos < pos' ∧
      (House.at_time db c s0 sched (t + 1)).fs = (House.at_time db c s0 sched t).fs ∧
      (House.at_time db c s0 sched (t + 1)).sessions p = .busy (.read l size got' pos' k) next

theorem time_other {p t : Nat} (h : (sched t).1 ≠ p) :
    (House.at_time db c s0 sched (t + 1)).sessions p = (House.at_time db c s0 sched t).sessions p := house_other db c _ _ (Ne.symm h)

theorem time_stop {p t : Nat} (h : (House.at_time db c s0 sched t).sessions p = .idle .stop) (d : Nat) :
    (House.at_time db c s0 sched (t + d)).sessions p = .idle .stop := by
  induction d with
  | zero => exact h
  | succ d ih =>
    by_cases e : (sched (t + d)).1 = p
    · show ((House.at_time db c s0 sched (t + d)).step db c (sched (t + d)).1 (sched (t + d)).2).1.sessions p = _
      rw [e]
      simp only [House.step, ih]
    · rw [show t + (d + 1) = t + d + 1 from rfl, time_other e, ih]

variable {G : Path → Prop} (hG : ∀ t l, G l → (House.at_time db c s0 sched t).fs.get l ≠ some .dir)
  (hstart : ∀ op, ∃ m, Finishes db.cwd (fun _ => True) G 0 m (Job.start db c op))

include hG

/-- A client in the middle of a call comes to rest, if it does when the call is over. -/
theorem busy_rests {p : Nat} {next : Res Answer → Script}
    (ih : ∀ r t, (House.at_time db c s0 sched t).sessions p = .idle (next r) → ∃ T, ∀ t', T ≤ t' → Restful db c s0 sched p t') :
    ∀ m t j, (House.at_time db c s0 sched t).sessions p = .busy j next → Finishes db.cwd (fun _ => True) G 0 m j →
      ∃ T, ∀ t', T ≤ t' → Restful db c s0 sched p t' := by
  intro m
  induction m using Nat.strongRecOn with
  | ind m ihm =>
    have far : ∀ e t j, (House.at_time db c s0 sched t).sessions p = .busy j next → Finishes db.cwd (fun _ => True) G 0 m j →
        ¬ Restful db c s0 sched p (t + e) → ∃ T, ∀ t', T ≤ t' → Restful db c s0 sched p t' := by
      intro e
      induction e with
      | zero =>
        intro t j hs he hn
        by_cases hp : (sched t).1 = p
        · have hstep : House.at_time db c s0 sched (t + 1) = ((House.at_time db c s0 sched t).step db c p (sched t).2).1 := by rw [← hp]; rfl
          by_cases hd : ∃ r, j = .done r
          · obtain ⟨r, rfl⟩ := hd
            refine ih r (t + 1) ?_
            rw [hstep, house_ret hs]
            exact setSession_self _ _ _ _
          · have hd' : ∀ r, j ≠ .done r := fun r e => hd ⟨r, e⟩
            rw [house_work hs hd'] at hstep
            rcases ends_step0 he hd' (House.at_time db c s0 sched t).fs (sched t).2 (hG t) with ⟨m', hlt, he'⟩ | ⟨l, size, got, pos, k, d, got', pos', h1, h2, h3, h4, h5, h6⟩
            · exact ihm m' hlt (t + 1) _ (by rw [hstep]; exact setSession_self _ _ _ _) he'
            · refine absurd (fun _ => Or.inr ⟨l, size, got, pos, k, d, got', pos', next, ?_, h2, h3, h4, ?_, ?_⟩) hn
              · rw [← h1]; exact hs
              · show (House.at_time db c s0 sched (t + 1)).fs = _
                rw [hstep, h5]
                rfl
              · show (House.at_time db c s0 sched (t + 1)).sessions p = _
                rw [hstep, h5]
                exact setSession_self _ _ _ _
        · exact absurd (fun h => absurd h hp) hn
      | succ e ihe =>
        intro t j hs he hn
        have hn' : ¬ Restful db c s0 sched p (t + 1 + e) := by rw [show t + 1 + e = t + (e + 1) by omega]; exact hn
        by_cases hp : (sched t).1 = p
        · have hstep : House.at_time db c s0 sched (t + 1) = ((House.at_time db c s0 sched t).step db c p (sched t).2).1 := by rw [← hp]; rfl
          by_cases hd : ∃ r, j = .done r
          · obtain ⟨r, rfl⟩ := hd
            refine ih r (t + 1) ?_
            rw [hstep, house_ret hs]
            exact setSession_self _ _ _ _
          · have hd' : ∀ r, j ≠ .done r := fun r e => hd ⟨r, e⟩
            rw [house_work hs hd'] at hstep
            rcases ends_step0 he hd' (House.at_time db c s0 sched t).fs (sched t).2 (hG t) with ⟨m', hlt, he'⟩ | ⟨l, size, got, pos, k, d, got', pos', h1, h2, h3, h4, h5, h6⟩
            · exact ihm m' hlt (t + 1) _ (by rw [hstep]; exact setSession_self _ _ _ _) he'
            · refine ihe (t + 1) _ ?_ h6 hn'
              rw [hstep, h5]
              exact setSession_self _ _ _ _
        · exact ihe (t + 1) j (by rw [time_other hp]; exact hs) he hn'
    intro t j hs he
    by_cases hq : ∀ e, Restful db c s0 sched p (t + e)
    · exact ⟨t, fun t' ht => by have := hq (t' - t); rw [show t + (t' - t) = t' by omega] at this; exact this⟩
    · obtain ⟨e, hn⟩ := Classical.not_forall.mp hq
      exact far e t j hs he hn

include hstart

/-- Every client comes to rest. -/
theorem idle_rests {p : Nat} : ∀ (sc : Script) (t : Nat), (House.at_time db c s0 sched t).sessions p = .idle sc →
    ∃ T, ∀ t', T ≤ t' → Restful db c s0 sched p t' := by
  intro sc
  induction sc with
  | stop =>
    intro t hs
    refine ⟨t, fun t' ht _ => Or.inl ?_⟩
    have := time_stop hs (t' - t)
    rw [show t + (t' - t) = t' by omega] at this
    exact this
  | make op next ih =>
    obtain ⟨m, hm⟩ := hstart op
    have far : ∀ e t, (House.at_time db c s0 sched t).sessions p = .idle (.make op next) → (sched (t + e)).1 = p →
        ∃ T, ∀ t', T ≤ t' → Restful db c s0 sched p t' := by
      intro e
      induction e with
      | zero =>
        intro t hs hp
        have hp : (sched t).1 = p := hp
        refine busy_rests hG ih m (t + 1) (Job.start db c op) ?_ hm
        show ((House.at_time db c s0 sched t).step db c (sched t).1 (sched t).2).1.sessions p = _
        rw [hp, house_call hs]
        exact setSession_self _ _ _ _
      | succ e ihe =>
        intro t hs hp
        by_cases hp' : (sched t).1 = p
        · refine busy_rests hG ih m (t + 1) (Job.start db c op) ?_ hm
          show ((House.at_time db c s0 sched t).step db c (sched t).1 (sched t).2).1.sessions p = _
          rw [hp', house_call hs]
          exact setSession_self _ _ _ _
        · exact ihe (t + 1) (by rw [time_other hp']; exact hs) (by rw [show t + 1 + e = t + (e + 1) by omega]; exact hp)
    intro t hs
    by_cases hq : ∃ e, (sched (t + e)).1 = p
    · obtain ⟨e, he⟩ := hq
      exact far e t hs he
    · refine ⟨t, fun t' ht hp => absurd ⟨t' - t, ?_⟩ hq⟩
      rw [show t + (t' - t) = t' by omega]
      exact hp

omit hG hstart in
theorem all_together {P : Nat} {Q : Nat → Nat → Prop} (h : ∀ p, p < P → ∃ T, ∀ t, T ≤ t → Q p t) : ∃ T, ∀ t, T ≤ t → ∀ p, p < P → Q p t := by
  induction P with
  | zero => exact ⟨0, fun t _ p hp => absurd hp (Nat.not_lt_zero p)⟩
  | succ P ih =>
    obtain ⟨T, hT⟩ := ih fun p hp => h p (by omega)
    obtain ⟨T', hT'⟩ := h P (by omega)
    refine ⟨max T T', fun t ht p hp => ?_⟩
    by_cases e : p = P
    · subst e; exact hT' t (by omega)
    · exact hT t (by omega) p (by omega)

/-- Everybody ends. -/
theorem all_stop {P : Nat} (script : ∀ p, ∃ sc, s0.sessions p = .idle sc) (hP : ∀ p, P ≤ p → s0.sessions p = .idle .stop) (hfair : Fair P sched) :
    ∃ T, ∀ t, T ≤ t → ∀ p, (House.at_time db c s0 sched t).sessions p = .idle .stop := by
  obtain ⟨T, hT⟩ := all_together (P := P) (Q := fun p t => Restful db c s0 sched p t) fun p _ => by
    obtain ⟨sc, hsc⟩ := script p
    exact idle_rests hG hstart sc 0 hsc
  have others : ∀ t p, P ≤ p → (House.at_time db c s0 sched t).sessions p = .idle .stop := fun t p hp => by
    have := time_stop (db := db) (c := c) (s0 := s0) (sched := sched) (t := 0) (hP p hp) t
    rw [Nat.zero_add] at this
    exact this
  have hfs1 : ∀ t, T ≤ t → (House.at_time db c s0 sched (t + 1)).fs = (House.at_time db c s0 sched t).fs := by
    intro t ht
    have idle : (House.at_time db c s0 sched t).sessions (sched t).1 = .idle .stop →
        (House.at_time db c s0 sched (t + 1)).fs = (House.at_time db c s0 sched t).fs := by
      intro h
      show ((House.at_time db c s0 sched t).step db c (sched t).1 (sched t).2).1.fs = _
      simp only [House.step, h]
    by_cases hp : (sched t).1 < P
    · rcases hT t ht _ hp rfl with h | ⟨l, size, got, pos, k, d, got', pos', next, h1, h2, h3, h4, h5, h6⟩
      · exact idle h
      · exact h5
    · exact idle (others t _ (by omega))
  have noread : ∀ p, p < P → ∀ left t l size got pos k next d, T ≤ t → (House.at_time db c s0 sched t).sessions p = .busy (.read l size got pos k) next →
      (House.at_time db c s0 sched t).fs.get l = some (.file d) → d.length - pos ≤ left → False := by
    intro p hp left
    induction left with
    | zero =>
      intro t l size got pos k next d ht hs hl hle
      obtain ⟨t', ht', hmove⟩ := hfair p hp t
      have far : ∀ e t, T ≤ t → (House.at_time db c s0 sched t).sessions p = .busy (.read l size got pos k) next →
          (House.at_time db c s0 sched t).fs.get l = some (.file d) → (sched (t + e)).1 = p → False := by
        intro e
        induction e with
        | zero =>
          intro t ht hs hl hmove
          rcases hT t ht p hp hmove with h | ⟨l', size', got', pos', k', d', got'', pos'', next', h1, h2, h3, h4, h5, h6⟩
          · rw [hs] at h; cases h
          · rw [hs] at h1
            cases h1
            rw [hl] at h2
            cases h2
            omega
        | succ e ihe =>
          intro t ht hs hl hmove
          by_cases hm : (sched t).1 = p
          · rcases hT t ht p hp hm with h | ⟨l', size', got', pos', k', d', got'', pos'', next', h1, h2, h3, h4, h5, h6⟩
            · rw [hs] at h; cases h
            · rw [hs] at h1
              cases h1
              rw [hl] at h2
              cases h2
              omega
          · exact ihe (t + 1) (by omega) (by rw [time_other hm]; exact hs) (by rw [hfs1 t ht]; exact hl)
              (by rw [show t + 1 + e = t + (e + 1) by omega]; exact hmove)
      exact far (t' - t) t ht hs hl (by rw [show t + (t' - t) = t' by omega]; exact hmove)
    | succ left ih =>
      intro t l size got pos k next d ht hs hl hle
      obtain ⟨t', ht', hmove⟩ := hfair p hp t
      have far : ∀ e t, T ≤ t → (House.at_time db c s0 sched t).sessions p = .busy (.read l size got pos k) next →
          (House.at_time db c s0 sched t).fs.get l = some (.file d) → (sched (t + e)).1 = p → False := by
        intro e
        have now : ∀ t, T ≤ t → (House.at_time db c s0 sched t).sessions p = .busy (.read l size got pos k) next →
            (House.at_time db c s0 sched t).fs.get l = some (.file d) → (sched t).1 = p → False := by
          intro t ht hs hl hm
          rcases hT t ht p hp hm with h | ⟨l', size', got', pos', k', d', got'', pos'', next', h1, h2, h3, h4, h5, h6⟩
          · rw [hs] at h; cases h
          · rw [hs] at h1
            cases h1
            rw [hl] at h2
            cases h2
            exact ih (t + 1) l size got'' pos'' k next d (by omega) h6 (by rw [h5]; exact hl) (by omega)
        induction e with
        | zero => intro t ht hs hl hmove; exact now t ht hs hl hmove
        | succ e ihe =>
          intro t ht hs hl hmove
          by_cases hm : (sched t).1 = p
          · exact now t ht hs hl hm
          · exact ihe (t + 1) (by omega) (by rw [time_other hm]; exact hs) (by rw [hfs1 t ht]; exact hl)
              (by rw [show t + 1 + e = t + (e + 1) by omega]; exact hmove)
      exact far (t' - t) t ht hs hl (by rw [show t + (t' - t) = t' by omega]; exact hmove)
  obtain ⟨T2, hT2⟩ := all_together (P := P) (Q := fun p t => (House.at_time db c s0 sched t).sessions p = .idle .stop) fun p hp => by
    obtain ⟨t', ht', hmove⟩ := hfair p hp T
    refine ⟨t', fun t ht => ?_⟩
    have hstop : (House.at_time db c s0 sched t').sessions p = .idle .stop := by
      rcases hT t' ht' p hp hmove with h | ⟨l, size, got, pos, k, d, got', pos', next, h1, h2, _⟩
      · exact h
      · exact (noread p hp (d.length - pos) t' l size got pos k next d ht' h1 h2 (Nat.le_refl _)).elim
    have := time_stop hstop (t - t')
    rw [show t' + (t - t') = t by omega] at this
    exact this
  refine ⟨T2, fun t ht p => ?_⟩
  by_cases hp : p < P
  · exact hT2 t ht p hp
  · exact others t p (by omega)

end Endless

end Verif
