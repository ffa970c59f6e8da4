import Verif.Proofs.Inodes
/-!
# C124: what happens to files that are removed while others have them open
-/

namespace Verif
open Spec

/-- **C124, every disk.** Whatever is on a disk, files can be numbered so that the names show just that. -/
theorem C124_numbered (fs : FS) : Numbered (diskOf fs.entries) ∧ Alike fs (diskOf fs.entries).shown := by
  obtain ⟨es⟩ := fs
  induction es with
  | nil => exact ⟨⟨fun _ _ h => (by cases h), fun _ _ _ h => (by cases h), rfl⟩, fun _ => rfl⟩
  | cons e es ih =>
    obtain ⟨l, x⟩ := e
    have hget : ∀ q, q ≠ [] → FS.get ⟨(l, x) :: es⟩ q = if q = l then some x else FS.get ⟨es⟩ q := by
      intro q hq
      unfold FS.get
      rw [if_neg hq, if_neg hq]
      exact FS.lookup_cons_if
    by_cases hl : l = []
    · subst hl
      have e : diskOf (([], x) :: es) = diskOf es := by cases x <;> exact if_pos rfl
      rw [show FS.entries ⟨([], x) :: es⟩ = ([], x) :: es from rfl, e]
      refine ⟨ih.1, fun q => ?_⟩
      by_cases hq : q = []
      · rw [hq]; exact ih.2 []
      · rw [hget q hq, if_neg hq]; exact ih.2 q
    · cases x with
      | dir =>
        have e : diskOf ((l, .dir) :: es) = { diskOf es with names := (l, none) :: (diskOf es).names } := if_neg hl
        have look : ∀ q, (diskOf ((l, .dir) :: es)).names.lookup q = if q = l then some none else (diskOf es).names.lookup q := by
          intro q
          rw [e]
          show ((l, none) :: (diskOf es).names).lookup q = _
          rw [List.lookup_cons]
          by_cases h : q = l
          · subst h; simp
          · simp only [show (q == l) = false from by simpa using h, if_neg h]
        have num : ∀ q i, (diskOf ((l, .dir) :: es)).number q = some i → (diskOf es).number q = some i := by
          intro q i h
          rw [Disk.number_some, look] at h
          split at h
          · cases h
          · exact Disk.number_some.mpr h
        refine ⟨⟨fun q i h => ?_, fun q q' i h h' => ih.1.one q q' i (num q i h) (num q' i h'), ?_⟩, fun q => ?_⟩
        · have := ih.1.low q i (num q i h)
          rw [show FS.entries ⟨(l, .dir) :: es⟩ = (l, .dir) :: es from rfl, e]
          exact this
        · rw [show FS.entries ⟨(l, .dir) :: es⟩ = (l, .dir) :: es from rfl, look, if_neg (Ne.symm hl)]
          exact ih.1.root
        · rw [show FS.entries ⟨(l, .dir) :: es⟩ = (l, .dir) :: es from rfl]
          by_cases hq : q = []
          · rw [hq]; rfl
          · rw [hget q hq, Disk.shown_get, if_neg hq, look]
            by_cases h : q = l
            · rw [if_pos h, if_pos h]; rfl
            · rw [if_neg h, if_neg h, ih.2 q, Disk.shown_get, if_neg hq, e]
      | file x =>
        have e : diskOf ((l, .file x) :: es) = ((diskOf es).create l).write (diskOf es).next x := if_neg hl
        rw [show FS.entries ⟨(l, .file x) :: es⟩ = (l, .file x) :: es from rfl, e]
        have h1 := Disk.create_numbered ih.1 hl
        refine ⟨Disk.write_numbered h1 _ _, fun q => ?_⟩
        have h2 := Disk.write_alike h1 (Disk.create_alike ih.1 ih.2 hl) (l := l) (i := (diskOf es).next)
          (by rw [Disk.create_number, if_pos rfl]) x q
        rw [← h2, FS.get_set hl, FS.get_set hl]
        by_cases hq : q = []
        · rw [hq, if_neg (Ne.symm hl), if_neg (Ne.symm hl)]; rfl
        · rw [hget q hq]
          by_cases h : q = l
          · rw [if_pos h, if_pos h]
          · rw [if_neg h, if_neg h, if_neg h]

/-- **C124, exactly.** If nobody removes what another client has open, then it does not matter that the kernel knows open files by number: the calls
and answers are the same as when they are known by their places, the clients have got equally far, and the names show the same. -/
theorem C124_exact (db : DB) (c : Codec) (fs : FS) (d : Disk) (script : Nat → Script) (sched : List (Nat × Nat)) (hd : Numbered d)
    (ha : Alike fs d.shown) (hn : NothingPulled db c (opening fs script) sched) :
    ((openingAt d script).run db c sched).2 = ((opening fs script).run db c sched).2 ∧
    (∀ p, ((openingAt d script).run db c sched).1.sessions p = ((opening fs script).run db c sched).1.sessions p) ∧
    Alike ((opening fs script).run db c sched).1.fs ((openingAt d script).run db c sched).1.disk.shown := by
  obtain ⟨h1, h2⟩ := mirror_run sched (mirror_open hd ha script) hn
  exact ⟨h2.symm, fun p => (h1.same p).symm, h1.alike⟩

/-- **C124, without races.** The condition of C117 is enough: then nobody removes what another client has open. -/
theorem C124_race_free (db : DB) (c : Codec) (fs : FS) (d : Disk) (script : Nat → Script) (sched : List (Nat × Nat)) (hd : Numbered d)
    (ha : Alike fs d.shown) (hr : RaceFree c (holdings db fs) script) (hp : AllPlaced db c fs script) :
    NothingPulled db c (opening fs script) sched ∧
    ((openingAt d script).run db c sched).2 = ((opening fs script).run db c sched).2 ∧
    (∀ p, ((openingAt d script).run db c sched).1.sessions p = ((opening fs script).run db c sched).1.sessions p) ∧
    Alike ((opening fs script).run db c sched).1.fs ((openingAt d script).run db c sched).1.disk.shown := by
  have hn : NothingPulled db c (opening fs script) sched :=
    pair_nothing sched (i := Atomic.start (holdings db fs) script) ⟨shows_start db fs, fun _ => Or.inl rfl, fun _ => .idle _⟩
      (fun marks i h p q op op' next next' => hr i ⟨marks, h⟩ p q op op' next next') (fun marks i h => hp i ⟨marks, h⟩)
  exact ⟨hn, C124_exact db c fs d script sched hd ha hn⟩

/-- **C124, one at a time.** So clients without races cannot tell, on such disks too, that their calls are carried out in pieces. -/
theorem C124_linearizable (db : DB) (c : Codec) (fs : FS) (d : Disk) (script : Nat → Script) (sched : List (Nat × Nat)) (hd : Numbered d)
    (ha : Alike fs d.shown) (hr : RaceFree c (holdings db fs) script) (hp : AllPlaced db c fs script) :
    ∃ marks s, Atomic.Run c (Atomic.start (holdings db fs) script) marks s ∧
      marks.filterMap Mark.seen = ((openingAt d script).run db c sched).2 ∧
      (∀ p x, ((openingAt d script).run db c sched).1.sessions p = .idle x ↔ s.turn p = .idle x) ∧
      ((∀ p, ∃ x, ((openingAt d script).run db c sched).1.sessions p = .idle x) →
        ∀ o, Placed db fs o → fileAt ((openingAt d script).run db c sched).1.disk.shown (at_ db o) = s.hold o) := by
  obtain ⟨_, h1, h2, h3⟩ := C124_race_free db c fs d script sched hd ha hr hp
  obtain ⟨marks, s, g1, g2, g3, g4⟩ := C117_race_free db c fs script sched hr hp
  refine ⟨marks, s, g1, g2.trans h1.symm, fun p x => by rw [h2 p]; exact g3 p x, ?_⟩
  intro hi o ho
  rw [← g4 (fun p => by obtain ⟨x, hx⟩ := hi p; exact ⟨x, (h2 p).symm.trans hx⟩) o ho]
  unfold fileAt
  rw [h3 (at_ db o)]

/-- **C124, alone.** A client with nobody else at work gets the same answers whichever way open files are known. -/
theorem C124_alone (db : DB) (c : Codec) (fs : FS) (d : Disk) (script : Nat → Script) (p : Nat) (hs : ∀ q, q ≠ p → script q = .stop)
    (sched : List (Nat × Nat)) (hd : Numbered d) (ha : Alike fs d.shown) :
    ((openingAt d script).run db c sched).2 = ((opening fs script).run db c sched).2 ∧
    (∀ p, ((openingAt d script).run db c sched).1.sessions p = ((opening fs script).run db c sched).1.sessions p) ∧
    Alike ((opening fs script).run db c sched).1.fs ((openingAt d script).run db c sched).1.disk.shown := by
  refine C124_exact db c fs d script sched hd ha ?_
  suffices H : ∀ (sched : List (Nat × Nat)) (s : House), (∀ q, q ≠ p → s.sessions q = .idle .stop) → NothingPulled db c s sched from
    H sched _ (fun q hq => by show Session.idle (script q) = _; rw [hs q hq])
  intro sched
  induction sched with
  | nil => exact fun _ _ => trivial
  | cons e sched ih =>
    obtain ⟨r, n⟩ := e
    intro s h
    refine ⟨?_, ?_⟩
    · intro j next l hb _ q j' next' hq hb'
      by_cases e : q = p
      · have : r ≠ p := fun e' => hq (e.trans e'.symm)
        rw [h r this] at hb
        cases hb
      · rw [h q e] at hb'
        cases hb'
    · refine ih _ fun q hq => ?_
      by_cases e : r = p
      · rw [← h q hq]
        unfold House.step
        split
        · rfl
        all_goals exact setSession_other _ _ _ (fun e' => hq (e'.trans e))
      · unfold House.step
        rw [h r e]
        exact h q hq

/-! ## Files that have lost their name -/

/-- **C124, kept.** From the moment when a file has lost its name and whoever has it open only reads it, nothing that anybody does changes it. -/
theorem C124_kept (db : DB) (c : Codec) (d : Disk) (script : Nat → Script) (s1 s2 : List (Nat × Nat)) (hd : Numbered d) (i : Nat)
    (hu : Unnamed ((openingAt d script).run db c s1).1.disk i) (ho : OnlyRead ((openingAt d script).run db c s1).1 i) :
    (((openingAt d script).run db c s1).1.run db c s2).1.disk.content i = ((openingAt d script).run db c s1).1.disk.content i :=
  (removed_run s2 (tidied_run s1 (tidied_open hd script)) hu ho).2.2

/-- **C124, read to the end.** A client that was reading such a file gets all the rest of it, whatever the others do: saving a new file under the same
name, too. -/
theorem C124_read (db : DB) (c : Codec) (d : Disk) (script : Nat → Script) (s1 s2 : List (Nat × Nat)) (hd : Numbered d) (i p : Nat) {t : Shop}
    (ht : t = ((openingAt d script).run db c s1).1) (hu : Unnamed t.disk i) (ho : OnlyRead t i) {l : Path} {size : Nat} {got : List Bytes} {pos : Nat}
    {k : Res (List Bytes) → Job} {next : Res Answer → Script} (hs : t.sessions p = .busy (.read l size got pos k) next) (hf : t.fds p = some i) :
    (∃ got' pos', (t.run db c s2).1.sessions p = .busy (.read l size got' pos' k) next ∧
      got'.flatten ++ (t.disk.content i).drop pos' = got.flatten ++ (t.disk.content i).drop pos) ∨
    ∃ early late got', s2 = early ++ late ∧ (t.run db c early).1.sessions p = .busy (k (.ok got')) next ∧
      got'.flatten = got.flatten ++ (t.disk.content i).drop pos :=
  removed_read s2 (ht ▸ tidied_run s1 (tidied_open hd script)) hu ho hs hf

/-! ## The condition is needed -/

/-- The bytes that were read. -/
def Spec.readings (es : List Event) : List Bytes := es.filterMap fun
  | .ret _ (.ok (.bytes b)) => some b
  | _ => none

/-- One client saves a draft; a second one removes it after the first one has opened it; a third one saves it again and reads it at the end. -/
def draftScripts : Nat → Script
  | 0 => always [.writeDraft (ascii "Ab") (ascii "1") (ascii "x")]
  | 1 => always [.deleteDraft (ascii "Ab") (ascii "1")]
  | 2 => always [.writeDraft (ascii "Ab") (ascii "1") (ascii "yy"), .readDraft (ascii "Ab") (ascii "1")]
  | _ => .stop

def draftTurns : List (Nat × Nat) :=
  [0, 0, 1, 1, 1, 2, 2, 2, 2, 0, 0, 2, 2, 2, 2, 2, 2].map fun p => (p, 9)

/-- **C124 needs its condition:** if a draft is removed while another client has it open for writing, what that client writes is lost with the removed
file; it would be found in the new one if open files were known by their places. -/
theorem C124_condition_needed : ¬ ∀ (db : DB) (c : Codec) (fs : FS) (d : Disk) (script : Nat → Script) (sched : List (Nat × Nat)), Numbered d →
    Alike fs d.shown → ((openingAt d script).run db c sched).2 = ((opening fs script).run db c sched).2 := by
  intro H
  have h := congrArg readings (H sampleDB asciiCodec sampleFS (diskOf sampleFS.entries) draftScripts draftTurns (C124_numbered _).1 (C124_numbered _).2)
  revert h
  decide +kernel

/-- What the third client reads. -/
example : readings ((openingAt (diskOf sampleFS.entries) draftScripts).run sampleDB asciiCodec draftTurns).2 = [ascii "yy"] := by decide +kernel

/-! ## Examples -/

example : RaceFree asciiCodec (holdings sampleDB sampleFS) sampleScripts ∧ AllPlaced sampleDB asciiCodec sampleFS sampleScripts ∧
    Numbered (diskOf sampleFS.entries) ∧ Alike sampleFS (diskOf sampleFS.entries).shown :=
  ⟨sampleScripts_fine.1, sampleScripts_fine.2, C124_numbered _⟩

/-- A draft is there; one client reads it, two bytes at a time, and another one removes it and saves it again. -/
def keptFS : FS := sampleFS.set [ascii "bbs", ascii "home", ascii "A", ascii "Ab", ascii "buf.1"] (.file (ascii "hello"))

def keptScripts : Nat → Script
  | 0 => always [.readDraft (ascii "Ab") (ascii "1")]
  | 1 => always [.deleteDraft (ascii "Ab") (ascii "1"), .writeDraft (ascii "Ab") (ascii "1") (ascii "yy")]
  | _ => .stop

/-- The file is removed when the first client has read two bytes. -/
def keptTurns : List (Nat × Nat) := [0, 0, 0, 0, 1, 1, 1].map fun p => (p, 1)

def keptShop : Shop := ((openingAt (diskOf keptFS.entries) keptScripts).run sampleDB asciiCodec keptTurns).1

theorem lookup_mem {α β : Type} [BEq α] [LawfulBEq α] {l : List (α × β)} {a : α} {b : β} (h : l.lookup a = some b) : (a, b) ∈ l := by
  induction l with
  | nil => cases h
  | cons e t ih =>
    obtain ⟨x, y⟩ := e
    rw [List.lookup_cons] at h
    cases hx : a == x with
    | true => rw [hx] at h; cases h; rw [eq_of_beq hx]; exact List.mem_cons_self
    | false => rw [hx] at h; exact List.mem_cons_of_mem _ (ih h)

/-- The hypotheses of `C124_kept` and `C124_read`. -/
example : Unnamed keptShop.disk 0 ∧ OnlyRead keptShop 0 ∧ keptShop.fds 0 = some 0 ∧ keptShop.disk.content 0 = ascii "hello" ∧
    ∃ k next, keptShop.sessions 0 = .busy (.read [ascii "bbs", ascii "home", ascii "A", ascii "Ab", ascii "buf.1"] 0 [ascii "he"] 2 k) next := by
  have h0 : ∃ k next, keptShop.sessions 0 =
      .busy (.read [ascii "bbs", ascii "home", ascii "A", ascii "Ab", ascii "buf.1"] 0 [ascii "he"] 2 k) next := ⟨_, _, by rfl⟩
  refine ⟨⟨by decide +kernel, ?_⟩, ?_, by decide +kernel, by decide +kernel, h0⟩
  · intro l h
    have := lookup_mem (Disk.number_some.mp h)
    have hall : ∀ e ∈ keptShop.disk.names, e.2 ≠ some 0 := by decide +kernel
    exact hall _ this rfl
  · intro q j next hq _
    match q with
    | 0 =>
      obtain ⟨k, next', e⟩ := h0
      rw [e] at hq
      cases hq
      exact Or.inl ⟨_, _, _, _, _, rfl⟩
    | 1 =>
      have e : ∃ x, keptShop.sessions 1 = .idle x := ⟨_, by rfl⟩
      obtain ⟨x, e⟩ := e
      rw [e] at hq
      cases hq
    | q + 2 =>
      have e : keptShop.sessions (q + 2) = .idle .stop := rfl
      rw [e] at hq
      cases hq

/-- The reader gets the removed draft, and not the one saved meanwhile. -/
example : readings (keptShop.run sampleDB asciiCodec ([1, 1, 1, 1, 0, 0, 0, 0].map fun p => (p, 1))).2 = [ascii "hello"] := by decide +kernel

end Verif
