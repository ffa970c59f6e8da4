import Verif.Proofs.Progress
import Verif.Proofs.FS
import Verif.Props.Drafts
import Verif.Props.Script
/-!
# C125: how long a call takes while others are at work
-/

namespace Verif
open Spec

/-- **C125, a bound.** A client makes a call while any number of others make any calls, their system calls interleaved in any way. If at all times the
files that it reads hold at most `L` bytes and the lists that it reads are no directories, it has its answer after `patience L op` steps of its own.
(Missing for the full claim: a bound that does not depend on how the files grow meanwhile; there is none, `C125_refuted`.) -/
theorem C125_bounded_partial (db : DB) (c : Codec) (L : Nat) (op : Call) (s : House) (p : Nat) (next : Res Answer → Script) (sched : List (Nat × Nat))
    (hs : s.sessions p = .idle (.make op next)) (hw : ∀ k, Manageable db L op (s.run db c (sched.take k)).1.fs)
    (hm : patience L op ≤ stepsOf p sched) : ∃ r, .ret p r ∈ (s.run db c sched).2 := by
  refine idle_returns (ends_start db c L op) sched s p next hs ?_ fun k => ⟨?_, ?_⟩
  · have : 2 ≤ patience L op := by cases op <;> simp only [patience] <;> omega
    omega
  · rintro l ⟨x, hx, rfl⟩ d hd
    exact (hw k).1 x hx d hd
  · rintro l ⟨x, hx, rfl⟩ hd
    exact (hw k).2 x hx hd

/-- **C125, writing.** A call that writes or removes has its answer after four steps of the client, whatever the others do and whatever is on the disk. -/
theorem C125_writers (db : DB) (c : Codec) (op : Call) (s : House) (p : Nat) (next : Res Answer → Script) (sched : List (Nat × Nat))
    (ho : (∃ r, op = .addBoard r) ∨ (∃ b r, op = .addRecord b r) ∨ (∃ b f x, op = .writeArticle b f x) ∨ (∃ b f x, op = .appendArticle b f x) ∨
      (∃ u d x, op = .writeDraft u d x) ∨ ∃ u d, op = .deleteDraft u d)
    (hs : s.sessions p = .idle (.make op next)) (hm : 4 ≤ stepsOf p sched) : ∃ r, .ret p r ∈ (s.run db c sched).2 := by
  rcases ho with ⟨_, rfl⟩ | ⟨_, _, rfl⟩ | ⟨_, _, _, rfl⟩ | ⟨_, _, _, rfl⟩ | ⟨_, _, _, rfl⟩ | ⟨_, _, rfl⟩
  all_goals refine C125_bounded_partial db c 0 _ s p next sched hs (fun k => ⟨fun x h => h.elim, fun x h => h.elim⟩) ?_
  all_goals simp only [patience]
  all_goals omega

/-- **C125, creating an article.** If the name of round `k` can be created when the client gets to it, it has its answer after `k + 3` steps of its own. -/
theorem C125_create (db : DB) (c : Codec) (b o d t : Bytes) (draw : Nat → Int × Fin 4096) (fuel k : Nat) (hk : k < fuel) (s : House) (p : Nat)
    (next : Res Answer → Script) (sched : List (Nat × Nat)) (hs : s.sessions p = .idle (.make (.createArticle b o d t draw fuel) next))
    (hw : ∀ x, getBoardArticleFilePath db.home b (DB.articleName (draw k).1 (draw k).2) = .ok x →
      ∀ j, stepsOf p (sched.take j) = k + 1 → ∃ fs', (s.run db c (sched.take j)).1.fs.createExcl db.cwd x = .ok fs')
    (hm : k + 3 ≤ stepsOf p sched) : ∃ r, .ret p r ∈ (s.run db c sched).2 :=
  create_returns hk sched s p next hs hm hw

/-- **C125, everybody ends.** Finitely many clients run any scripts. If each of them gets to move again and again, and no directory has the name of a list,
then from some time on all scripts have come to their ends. -/
theorem C125_all_end (db : DB) (c : Codec) (fs : FS) (script : Nat → Script) (P : Nat) (sched : Nat → Nat × Nat)
    (hP : ∀ p, P ≤ p → script p = .stop) (hfair : Fair P sched) (hl : ListsAreFiles fs) :
    ∃ T, ∀ t, T ≤ t → ∀ p, (House.at_time db c (opening fs script) sched t).sessions p = .idle .stop := by
  have hG : ∀ t l, fs.get l ≠ some .dir → (House.at_time db c (opening fs script) sched t).fs.get l ≠ some .dir := by
    intro t l h
    induction t with
    | zero => exact h
    | succ t ih => exact fun hd => ih (house_no_dir hd)
  refine all_stop (G := fun l => fs.get l ≠ some .dir) hG (fun op => ⟨_, ends_mono (ends_start db c 0 op) (fun _ _ => trivial) ?_⟩)
    (fun p => ⟨script p, rfl⟩) (fun p hp => ?_) hfair
  · rintro l ⟨x, hx, rfl⟩
    exact list_no_dir hl hx
  · show Session.idle (script p) = _
    rw [hP p hp]

/-! ## No bound in general -/

/-- One client lists the articles of a board and another one adds records to the list. -/
def chase (b : Bytes) (r : FileHeader) (n : Nat) : Nat → Script
  | 0 => always [.listArticles b]
  | 1 => always (List.replicate n (.addRecord b r))
  | _ => .stop

/-- One record is added, and the reader reads once. -/
def chaseRound : List (Nat × Nat) := [(1, 0), (1, 0), (1, 0), (1, 0), (0, 0)]

theorem house_run_append (db : DB) (c : Codec) (a b : List (Nat × Nat)) : ∀ s : House, s.run db c (a ++ b) =
    (((s.run db c a).1.run db c b).1, (s.run db c a).2 ++ ((s.run db c a).1.run db c b).2) := by
  induction a with
  | nil => intro s; rfl
  | cons x a ih =>
    intro s
    rw [List.cons_append, run_cons, run_cons, ih]
    simp only [List.append_assoc]

theorem chase_round {db : DB} {c : Codec} {b p : Bytes} {r : FileHeader} {l : Path} (hp : getBoardArticlesDirectoryPath db.home b = .ok p) (n : Nat)
    (s : House) (d : Bytes) (got : List Bytes) (pos : Nat) (k : Res (List Bytes) → Job) (next : Res Answer → Script)
    (h0 : s.sessions 0 = .busy (.read l 128 got pos k) next) (h1 : s.sessions 1 = .idle (always (List.replicate (n + 1) (.addRecord b r))))
    (hl : s.fs.lookup db.cwd p = .ok l) (hf : s.fs.get l = some (.file d)) (hpos : pos ≤ d.length) :
    ∃ s' d' got' pos', s.run db c chaseRound = (s', [.call 1 (.addRecord b r), .ret 1 (.ok .done)]) ∧
      s'.sessions 0 = .busy (.read l 128 got' pos' k) next ∧ s'.sessions 1 = .idle (always (List.replicate n (.addRecord b r))) ∧
      s'.fs.lookup db.cwd p = .ok l ∧ s'.fs.get l = some (.file d') ∧ pos' ≤ d'.length := by
  have hnd : s.fs.get l ≠ some .dir := by rw [hf]; simp
  have hne := FS.ne_root hnd
  have e1 := house_call (db := db) (c := c) (n := 0) h1
  generalize hs1 : s.setSession s.fs 1 (.busy (Job.start db c (.addRecord b r)) fun _ => always (List.replicate n (.addRecord b r))) = s1 at e1
  have a1 : s1.sessions 1 = .busy (.openMake p (Job.orStop fun l => .append l (r.marshal c) (.done (.ok .done))))
      fun _ => always (List.replicate n (.addRecord b r)) := by
    rw [← hs1, setSession_self]
    simp only [Job.start, hp, Job.orStop]
  have f1 : s1.fs = s.fs := by rw [← hs1]; rfl
  have z1 : s1.sessions 0 = .busy (.read l 128 got pos k) next := by rw [← hs1, setSession_other _ _ _ (by omega)]; exact h0
  have e2 := house_work (db := db) (c := c) (n := 0) a1 (fun r h => by cases h)
  have st : Job.step db.cwd s1.fs 0 (.openMake p (Job.orStop fun l => .append l (r.marshal c) (.done (.ok .done)))) =
      (s.fs, .append l (r.marshal c) (.done (.ok .done))) := by
    have : s1.fs.openCreate db.cwd p = .ok (l, d) := by rw [f1]; unfold FS.openCreate; rw [hl]; show (match s.fs.get l with | none => _ | some .dir => _ | some (.file d) => _) = _; rw [hf]
    simp only [Job.step, this, Job.orStop]
    rw [f1, hf]
    rfl
  rw [st] at e2
  generalize hs2 : s1.setSession s.fs 1 (.busy (.append l (r.marshal c) (.done (.ok .done))) fun _ => always (List.replicate n (.addRecord b r))) = s2 at e2
  have a2 : s2.sessions 1 = .busy (.append l (r.marshal c) (.done (.ok .done))) fun _ => always (List.replicate n (.addRecord b r)) := by
    rw [← hs2, setSession_self]
  have f2 : s2.fs = s.fs := by rw [← hs2]; rfl
  have z2 : s2.sessions 0 = .busy (.read l 128 got pos k) next := by rw [← hs2, setSession_other _ _ _ (by omega)]; exact z1
  have e3 := house_work (db := db) (c := c) (n := 0) a2 (fun r h => by cases h)
  have st3 : Job.step db.cwd s2.fs 0 (.append l (r.marshal c) (.done (.ok .done))) = (s.fs.set l (.file (d ++ r.marshal c)), .done (.ok .done)) := by
    simp only [Job.step, f2, hf]
  rw [st3] at e3
  generalize hs3 : s2.setSession (s.fs.set l (.file (d ++ r.marshal c))) 1 (.busy (.done (.ok .done)) fun _ => always (List.replicate n (.addRecord b r))) = s3 at e3
  have a3 : s3.sessions 1 = .busy (.done (.ok .done)) fun _ => always (List.replicate n (.addRecord b r)) := by rw [← hs3, setSession_self]
  have f3 : s3.fs = s.fs.set l (.file (d ++ r.marshal c)) := by rw [← hs3]; rfl
  have z3 : s3.sessions 0 = .busy (.read l 128 got pos k) next := by rw [← hs3, setSession_other _ _ _ (by omega)]; exact z2
  have e4 := house_ret (db := db) (c := c) (n := 0) a3
  generalize hs4 : s3.setSession s3.fs 1 (.idle (always (List.replicate n (.addRecord b r)))) = s4 at e4
  have a4 : s4.sessions 1 = .idle (always (List.replicate n (.addRecord b r))) := by rw [← hs4, setSession_self]
  have f4 : s4.fs = s.fs.set l (.file (d ++ r.marshal c)) := by rw [← hs4]; exact f3
  have z4 : s4.sessions 0 = .busy (.read l 128 got pos k) next := by rw [← hs4, setSession_other _ _ _ (by omega)]; exact z3
  have g4 : s4.fs.get l = some (.file (d ++ r.marshal c)) := by rw [f4, FS.get_set hne, if_pos rfl]
  have hlen : (d ++ r.marshal c).length = d.length + 128 := by rw [List.length_append, r.marshal_length]
  have e5 := house_work (db := db) (c := c) (n := 0) z4 (fun r h => by cases h)
  have st5 : Job.step db.cwd s4.fs 0 (.read l 128 got pos k) = (s4.fs, .read l 128 (got ++ [slice (d ++ r.marshal c) pos (pos + 128)])
      (pos + (slice (d ++ r.marshal c) pos (pos + 128)).length) k) := by
    have : pos < (d ++ r.marshal c).length := by omega
    simp only [Job.step, g4, if_pos this]
    rfl
  rw [st5] at e5
  refine ⟨s4.setSession s4.fs 0 (.busy (.read l 128 (got ++ [slice (d ++ r.marshal c) pos (pos + 128)])
      (pos + (slice (d ++ r.marshal c) pos (pos + 128)).length) k) next), d ++ r.marshal c, got ++ [slice (d ++ r.marshal c) pos (pos + 128)],
      pos + (slice (d ++ r.marshal c) pos (pos + 128)).length, ?_, ?_, ?_, ?_, ?_, ?_⟩
  rotate_left
  · exact setSession_self _ _ _ _
  · rw [setSession_other _ _ _ (by omega)]
    exact a4
  · show s4.fs.lookup db.cwd p = _
    rw [f4]
    exact FS.lookup_mono (FS.set_file_dirs hnd) hl
  · exact g4
  · rw [hlen]
    simp only [slice, List.length_drop, List.length_take, hlen]
    omega
  · simp only [chaseRound, run_cons, e1, e2, e3, e4, e5]
    rfl

/-- **C125, the chased reader.** Of whatever length the list of a board is: a client that lists it can be kept reading for as many steps as one likes by
another client that adds records. -/
theorem C125_chased (db : DB) (c : Codec) (fs : FS) (b p d : Bytes) (l : Path) (r : FileHeader) (hp : getBoardArticlesDirectoryPath db.home b = .ok p)
    (hl : fs.lookup db.cwd p = .ok l) (hf : fs.get l = some (.file d)) (n : Nat) :
    ∃ sched, n ≤ stepsOf 0 sched ∧ ∀ a, .ret 0 a ∉ ((opening fs (chase b r n)).run db c sched).2 := by
  have rounds : ∀ (n : Nat) (s : House) (d : Bytes) (got : List Bytes) (pos : Nat) (k : Res (List Bytes) → Job) (next : Res Answer → Script),
      s.sessions 0 = .busy (.read l 128 got pos k) next → s.sessions 1 = .idle (always (List.replicate n (.addRecord b r))) →
      s.fs.lookup db.cwd p = .ok l → s.fs.get l = some (.file d) → pos ≤ d.length →
      ∃ sched, n ≤ stepsOf 0 sched ∧ ∀ a, .ret 0 a ∉ (s.run db c sched).2 := by
    intro n
    induction n with
    | zero => intro s d got pos k next _ _ _ _ _; exact ⟨[], Nat.zero_le _, fun a h => by cases h⟩
    | succ n ih =>
      intro s d got pos k next h0 h1 hl hf hpos
      obtain ⟨s', d', got', pos', e, h0', h1', hl', hf', hpos'⟩ := chase_round (db := db) (c := c) hp n s d got pos k next h0 h1 hl hf hpos
      obtain ⟨sched, hs1, hs2⟩ := ih s' d' got' pos' k next h0' h1' hl' hf' hpos'
      refine ⟨chaseRound ++ sched, ?_, fun a h => ?_⟩
      · have : stepsOf 0 (chaseRound ++ sched) = 1 + stepsOf 0 sched := by simp [stepsOf, chaseRound]; omega
        omega
      · rw [house_run_append, e] at h
        rcases List.mem_append.mp h with h | h
        · simp at h
        · exact hs2 a h
  have h0 : (opening fs (chase b r n)).sessions 0 = .idle (.make (.listArticles b) fun _ => .stop) := rfl
  have e1 := house_call (db := db) (c := c) (n := 0) h0
  generalize hs1 : (opening fs (chase b r n)).setSession (opening fs (chase b r n)).fs 0 (.busy (Job.start db c (.listArticles b)) fun _ => .stop) = s1 at e1
  have a1 : ∃ k, s1.sessions 0 = .busy (.openRead p k) (fun _ => .stop) ∧ ∃ k', k (.ok l) = .read l 128 [] 0 k' := by
    rw [← hs1, setSession_self]
    simp only [Job.start, hp, Job.orStop]
    exact ⟨_, rfl, _, rfl⟩
  obtain ⟨k, a1, k', hk⟩ := a1
  have f1 : s1.fs = fs := by rw [← hs1]; rfl
  have z1 : s1.sessions 1 = .idle (always (List.replicate n (.addRecord b r))) := by rw [← hs1, setSession_other _ _ _ (by omega)]; rfl
  have e2 := house_work (db := db) (c := c) (n := 0) a1 (fun r h => by cases h)
  have st : Job.step db.cwd s1.fs 0 (.openRead p k) = (s1.fs, .read l 128 [] 0 k') := by
    have : Job.opened s1.fs db.cwd p false = .ok l := by
      unfold Job.opened
      rw [f1, hl]
      show (match fs.get l with | none => _ | some .dir => _ | some (.file _) => _) = _
      rw [hf]
    simp only [Job.step, this, hk]
  rw [st] at e2
  obtain ⟨sched, hs1, hs2⟩ := rounds n (s1.setSession s1.fs 0 (.busy (.read l 128 [] 0 k') fun _ => .stop)) d [] 0 k' _ (setSession_self _ _ _ _)
    (by rw [setSession_other _ _ _ (by omega)]; exact z1) (by show s1.fs.lookup _ _ = _; rw [f1]; exact hl) (by show s1.fs.get _ = _; rw [f1]; exact hf) (Nat.zero_le _)
  refine ⟨(0, 0) :: (0, 0) :: sched, ?_, fun a h => ?_⟩
  · rw [stepsOf_self, stepsOf_self]
    omega
  · rw [run_cons, e1, run_cons, e2] at h
    rcases List.mem_append.mp h with h | h
    · simp at h
    · rcases List.mem_append.mp h with h | h
      · simp at h
      · exact hs2 a h

/-- C125 as it stands: every call has its answer after a number of steps of the client that depends on the call and the disk, not on what others do. -/
def Spec.CallsBounded : Prop := ∀ (db : DB) (c : Codec) (op : Call) (fs : FS), ListsAreFiles fs → Bounded db c op fs

def chaseFS : FS := sampleFS.set [ascii "bbs", ascii "boards", ascii "S", ascii "S", ascii ".DIR"] (.file [])

theorem chaseFS_lists : ListsAreFiles chaseFS := by
  intro l h
  by_cases e : l = []
  · subst e
    exact ⟨by simp, by simp, by simp⟩
  · have hm : (l, Node.dir) ∈ chaseFS.entries := by
      rw [FS.get, if_neg e] at h
      obtain ⟨l₁, l₂, he, _⟩ := List.lookup_eq_some_iff.mp h
      rw [he]
      simp
    have hall : ∀ x ∈ chaseFS.entries, x.2 = .dir → x.1.getLast? ≠ some (ascii ".PASSWDS") ∧ x.1.getLast? ≠ some (ascii ".BRD") ∧ x.1.getLast? ≠ some (ascii ".DIR") := by
      decide +kernel
    exact hall _ hm rfl

/-- **C125, refuted.** There is no such number for listing a board. -/
theorem C125_refuted : ¬ CallsBounded := by
  intro h
  obtain ⟨N, hN⟩ := h sampleDB asciiCodec (.listArticles (ascii "S")) chaseFS chaseFS_lists
  obtain ⟨sched, h1, h2⟩ := C125_chased sampleDB asciiCodec chaseFS (ascii "S") _ [] [ascii "bbs", ascii "boards", ascii "S", ascii "S", ascii ".DIR"]
    (DB.newArticleRecord [] [] [] []) rfl (by decide +kernel) (by decide +kernel) N
  obtain ⟨r, hr⟩ := hN (opening chaseFS (chase (ascii "S") (DB.newArticleRecord [] [] [] []) N)) 0 (fun _ => .stop) sched rfl rfl h1
  exact h2 r hr

/-! ## Examples -/

/-- A client saves a draft while another one removes it: four steps each. -/
example : ∃ r, .ret 0 r ∈ ((opening sampleFS fun p => if p = 0 then always [.writeDraft (ascii "Ab") (ascii "1") (ascii "x")]
    else always [.deleteDraft (ascii "Ab") (ascii "1")]).run sampleDB asciiCodec [(0, 0), (1, 0), (0, 0), (1, 0), (0, 0), (1, 0), (0, 0)]).2 :=
  C125_writers sampleDB asciiCodec _ _ 0 (fun _ => .stop) _ (Or.inr (Or.inr (Or.inr (Or.inr (Or.inl ⟨_, _, _, rfl⟩))))) rfl (by decide)

/-- The list of the board is empty and stays so. -/
example : ∃ r, .ret 0 r ∈ ((opening chaseFS (chase (ascii "S") (DB.newArticleRecord [] [] [] []) 0)).run sampleDB asciiCodec
    [(0, 0), (0, 0), (1, 0), (0, 0), (0, 0)]).2 := by
  refine C125_bounded_partial sampleDB asciiCodec 0 _ _ 0 (fun _ => .stop) _ rfl ?_ (by decide)
  intro k
  have hfs : ((opening chaseFS (chase (ascii "S") (DB.newArticleRecord [] [] [] []) 0)).run sampleDB asciiCodec
      (List.take k [(0, 0), (0, 0), (1, 0), (0, 0), (0, 0)])).1.fs = chaseFS := by
    match k with
    | 0 => rfl
    | 1 => rfl
    | 2 => rfl
    | 3 => rfl
    | 4 => decide +kernel
    | k + 5 => rw [List.take_of_length_le (by simp)]; decide +kernel
  rw [hfs]
  constructor
  · intro p hp d hd
    cases hp
    have : chaseFS.get (resolve sampleDB.cwd (sampleDB.home ++ ascii "/boards/" ++ fmtC 83 ++ ascii "/" ++ ascii "S" ++ ascii "/.DIR")) = some (.file []) := by
      decide +kernel
    have hd := this.symm.trans hd
    cases hd
    exact Nat.le_refl _
  · intro p hp hd
    exact list_no_dir chaseFS_lists hp hd

/-- The first name that is drawn is free. -/
example : ∃ r, .ret 0 r ∈ ((opening sampleFS fun p => if p = 0 then always [.createArticle (ascii "S") [] [] [] (fun _ => (0, 0)) 1] else .stop).run
    sampleDB asciiCodec [(0, 0), (0, 0), (0, 0)]).2 := by
  refine C125_create sampleDB asciiCodec (ascii "S") [] [] [] (fun _ => (0, 0)) 1 0 (by decide) _ 0 (fun _ => .stop) _ rfl ?_ (by decide)
  intro x hx j hj
  cases hx
  match j with
  | 0 => exact absurd hj (by decide)
  | 1 => exact ⟨_, by rfl⟩
  | 2 => exact absurd hj (by decide)
  | j + 3 => exact absurd hj (by rw [List.take_of_length_le (by simp)]; decide)

/-- Two clients take turns. -/
example : Fair 2 (fun t => (t % 2, 0)) ∧ ListsAreFiles chaseFS ∧ ∀ p, 2 ≤ p → chase (ascii "S") (DB.newArticleRecord [] [] [] []) 7 p = .stop := by
  refine ⟨fun p hp t => ⟨2 * t + p, by omega, ?_⟩, chaseFS_lists, fun p hp => ?_⟩
  · show (2 * t + p) % 2 = p
    omega
  · match p, hp with
    | p + 2, _ => rfl

end Verif
