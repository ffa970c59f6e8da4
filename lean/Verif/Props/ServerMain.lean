import Verif.Model.ServerMain
import Verif.Proofs.FS
import Verif.Props.RecordFiles
import Verif.Props.Routes
/-!
# C65, C66: the running service and the files on disk
-/

namespace Verif

/-- A list file at a path string: what a reader of fixed-size records makes of it. -/
inductive Spec.ListFile {α : Type} (size : Nat) (p : Bytes → α) (cwd : Path) (fs : FS) (path : Bytes) : List α → Prop where
  | present (l : Path) (d : Bytes) : fs.lookup cwd path = .ok l → fs.get l = some (.file d) →
      Spec.ListFile size p cwd fs path ((Spec.slots size d).map p)
  | absent (l : Path) : fs.lookup cwd path = .ok l → fs.get l = none → Spec.ListFile size p cwd fs path []
  | unreachable (e : String) : fs.lookup cwd path = .err e → Spec.ListFile size p cwd fs path []

/-- There is a directory at a path string. -/
def Spec.DirAt (cwd : Path) (fs : FS) (path : Bytes) : Prop := ∃ l, fs.lookup cwd path = .ok l ∧ fs.get l = some .dir

theorem lookup_cases (fs : FS) (cwd : Path) (p : Bytes) :
    (∃ l, fs.lookup cwd p = .ok l) ∨ ∃ e, fs.lookup cwd p = .err e := by
  have hw : ∀ (cs : List Bytes) (cur : Path), (∃ l, fs.walk cur cs = .ok l) ∨ ∃ e, fs.walk cur cs = .err e := by
    intro cs
    induction cs with
    | nil => intro cur; exact .inl ⟨cur, rfl⟩
    | cons x xs ih =>
      intro cur
      simp only [FS.walk]
      split
      · exact .inr ⟨_, rfl⟩
      · exact .inr ⟨_, rfl⟩
      · exact ih _
  unfold FS.lookup
  split
  · exact .inr ⟨_, rfl⟩
  · split
    · exact .inr ⟨_, rfl⟩
    · exact hw _ _

/-- One list, whatever is on the disk. -/
theorem loaded_cases {α : Type} {size : Nat} (hs : 0 < size) {parse : Bytes → Res α} {p : Bytes → α}
    (hp : ∀ b, b.length = size → parse b = .ok (p b)) (fs : FS) (cwd : Path) (path : Bytes) (r : Res (List α))
    (hr : r = (fs.lookup cwd path >>= fun l => match fs.get l with
      | none => .err "no such file or directory"
      | some .dir => .diverge
      | some (.file d) => readFile size parse (some d))) :
    (Spec.DirAt cwd fs path ∧ loaded r = .diverge ∧ ∀ xs, ¬ Spec.ListFile size p cwd fs path xs) ∨
    (¬ Spec.DirAt cwd fs path ∧ ∃ xs, loaded r = .ok xs ∧ ∀ ys, Spec.ListFile size p cwd fs path ys ↔ ys = xs) := by
  subst hr
  rcases lookup_cases fs cwd path with ⟨l, hl⟩ | ⟨e, he⟩
  · rw [hl, Res.ok_bind]
    cases hg : fs.get l with
    | none =>
      right
      refine ⟨?_, [], rfl, ?_⟩
      · rintro ⟨l', h1, h2⟩
        rw [hl] at h1; cases h1
        rw [hg] at h2; cases h2
      · intro ys
        constructor
        · intro h
          cases h with
          | present l' d h1 h2 => rw [hl] at h1; cases h1; rw [hg] at h2; cases h2
          | absent => rfl
          | unreachable => rfl
        · rintro rfl
          exact .absent l hl hg
    | some n =>
      cases n with
      | dir =>
        left
        refine ⟨⟨l, hl, hg⟩, rfl, ?_⟩
        intro xs h
        cases h with
        | present l' d h1 h2 => rw [hl] at h1; cases h1; rw [hg] at h2; cases h2
        | absent l' h1 h2 => rw [hl] at h1; cases h1; rw [hg] at h2; cases h2
        | unreachable e h1 => rw [hl] at h1; cases h1
      | file d =>
        right
        refine ⟨?_, (Spec.slots size d).map p, ?_, ?_⟩
        · rintro ⟨l', h1, h2⟩
          rw [hl] at h1; cases h1
          rw [hg] at h2; cases h2
        · show loaded (readFile size parse (some d)) = _
          rw [readFile_slots hs hp d]
          rfl
        · intro ys
          constructor
          · intro h
            cases h with
            | present l' d h1 h2 => rw [hl] at h1; cases h1; rw [hg] at h2; cases h2; rfl
            | absent l' h1 h2 => rw [hl] at h1; cases h1; rw [hg] at h2; cases h2
            | unreachable e h1 => rw [hl] at h1; cases h1
          · rintro rfl
            exact .present l d hl hg
  · right
    rw [he, Res.err_bind]
    refine ⟨?_, [], rfl, ?_⟩
    · rintro ⟨l', h1, h2⟩
      rw [he] at h1; cases h1
    · intro ys
      constructor
      · intro h
        cases h with
        | present l' d h1 h2 => rw [he] at h1; cases h1
        | absent => rfl
        | unreachable => rfl
      · rintro rfl
        exact .unreachable e he

/-! ## C66 -/

/-- **C66** in full: the service comes up whatever is on the disk. -/
def Spec.C66 : Prop := ∀ (c : Codec) (cwd : Path) (fs : FS), ∃ st, startServer c cwd fs = .ok st

/-- **C66.** Exactly when it comes up, and with which users and boards. -/
theorem C66_exact (c : Codec) (cwd : Path) (fs : FS) :
    (∀ st, startServer c cwd fs = .ok st ↔
      Spec.ListFile 512 (Userec.parse c) cwd fs (ascii "../home/bbs/.PASSWDS") st.userRecs ∧
      Spec.ListFile 256 (BoardHeader.parse c) cwd fs (ascii "../home/bbs/.BRD") st.boardHeader) ∧
    ((¬ ∃ st, startServer c cwd fs = .ok st) ↔
      Spec.DirAt cwd fs (ascii "../home/bbs/.PASSWDS") ∨ Spec.DirAt cwd fs (ascii "../home/bbs/.BRD")) := by
  have hu := loaded_cases (size := 512) (by omega) (Userec.unmarshal_eq c) fs cwd (ascii "../home/bbs/.PASSWDS")
    (DB.readUserRecords ⟨ascii "../home/bbs", cwd⟩ c fs) rfl
  have hb := loaded_cases (size := 256) (by omega) (BoardHeader.unmarshal_eq c) fs cwd (ascii "../home/bbs/.BRD")
    (DB.readBoardRecords ⟨ascii "../home/bbs", cwd⟩ c fs) rfl
  have hstart : startServer c cwd fs = (loaded (DB.readUserRecords ⟨ascii "../home/bbs", cwd⟩ c fs) >>= fun us =>
      loaded (DB.readBoardRecords ⟨ascii "../home/bbs", cwd⟩ c fs) >>= fun bs => Res.ok ⟨us, bs⟩) := rfl
  rw [hstart]
  rcases hu with ⟨d1, r1, n1⟩ | ⟨d1, us, r1, n1⟩
  · rw [r1]
    refine ⟨fun st => ⟨fun h => (by cases h), fun h => absurd h.1 (n1 _)⟩, fun _ => .inl d1, ?_⟩
    rintro - ⟨st, h⟩
    cases h
  · rw [r1, Res.ok_bind]
    rcases hb with ⟨d2, r2, n2⟩ | ⟨d2, bs, r2, n2⟩
    · rw [r2]
      refine ⟨fun st => ⟨fun h => (by cases h), fun h => absurd h.2 (n2 _)⟩, fun _ => .inr d2, ?_⟩
      rintro - ⟨st, h⟩
      cases h
    · rw [r2, Res.ok_bind]
      constructor
      · intro st
        constructor
        · intro h
          cases h
          exact ⟨(n1 _).2 rfl, (n2 _).2 rfl⟩
        · rintro ⟨h1, h2⟩
          rw [← (n1 _).1 h1, ← (n2 _).1 h2]
      · constructor
        · intro h
          exact absurd ⟨_, rfl⟩ h
        · rintro (h | h)
          · exact absurd h d1
          · exact absurd h d2

/-- A directory in the place of the board list. -/
def Spec.badDisk : FS := ⟨[([ascii "home", ascii "bbs", ascii ".BRD"], .dir), ([ascii "home", ascii "bbs"], .dir),
  ([ascii "home"], .dir), ([ascii "serverlet"], .dir)]⟩

theorem C66_refuted : ¬ Spec.C66 := by
  intro h
  have := (C66_exact asciiCodec [ascii "serverlet"] Spec.badDisk).2.2
    (.inr ⟨[ascii "home", ascii "bbs", ascii ".BRD"], by decide, by decide⟩)
  exact this (h _ _ _)

/-- What holds: with two regular files, or with files missing, it comes up. -/
theorem C66_partial (c : Codec) (cwd : Path) (fs : FS) (hu : ¬ Spec.DirAt cwd fs (ascii "../home/bbs/.PASSWDS"))
    (hb : ¬ Spec.DirAt cwd fs (ascii "../home/bbs/.BRD")) : ∃ st, startServer c cwd fs = .ok st := by
  apply Classical.byContradiction
  intro h
  rcases (C66_exact c cwd fs).2.1 h with h | h
  · exact hu h
  · exact hb h

example : ¬ Spec.DirAt [ascii "serverlet"] Spec.badDisk (ascii "../home/bbs/.PASSWDS") := by
  rintro ⟨l, h1, h2⟩
  have e : Spec.badDisk.lookup [ascii "serverlet"] (ascii "../home/bbs/.PASSWDS") =
    .ok [ascii "home", ascii "bbs", ascii ".PASSWDS"] := by decide
  rw [e] at h1
  cases h1
  exact absurd h2 (by decide)

/-- A service without a password file is up and knows nobody. -/
theorem C66_no_file (c : Codec) (cwd l : Path) (fs : FS) (st : ServerState) (h : startServer c cwd fs = .ok st)
    (hl : fs.lookup cwd (ascii "../home/bbs/.PASSWDS") = .ok l) (hn : fs.get l = none) (sign : Claims → Bytes) (r : Request)
    (t : Bytes) : serve sign st r ≠ .ok (.accessToken t) := by
  have hf := ((C66_exact c cwd fs).1 st).1 h
  have he : st.userRecs = [] := by
    have := hf.1
    generalize st.userRecs = us at this
    cases this with
    | present l' d h1 h2 => rw [hl] at h1; cases h1; rw [hn] at h2; cases h2
    | absent => rfl
    | unreachable => rfl
  intro ht
  obtain ⟨hm, hp⟩ := C54_only_here sign st r t ht
  obtain ⟨u, hu, -⟩ := (C54_issued sign st r hp hm t).1 ht
  have := hu.mem.1
  rw [he] at this
  cases this

/-! ## C65 -/

/-- **C65** in full: a request is answered from the files as they are. -/
def Spec.C65 : Prop := ∀ (c : Codec) (cwd : Path) (sign : Claims → Bytes) (fs fs' : FS) (st st' : ServerState) (r : Request),
  startServer c cwd fs = .ok st → startServer c cwd fs' = .ok st' →
  answers sign st [.disk fs', .request r] = [serve sign st' r]

/-- **C65.** The answers to any history are those of the state loaded at the start. -/
theorem C65_exact (sign : Claims → Bytes) (st : ServerState) (es : List ServerEvent) :
    answers sign st es = es.filterMap (fun e => match e with
      | .disk _ => none
      | .request r => some (serve sign st r)) := by
  induction es with
  | nil => rfl
  | cons e es ih =>
    cases e with
    | disk fs => exact ih
    | request r =>
      show serve sign st r :: answers sign st es = _
      rw [ih]
      rfl

/-- The old password goes on working after any change of the disk. -/
theorem C65_old_password (sign : Claims → Bytes) (st : ServerState) (fs' : FS) (u : Userec) (i p auth : Bytes)
    (hu : Spec.FirstWithID st.userRecs i u) (hp : Spec.Accepts u p) :
    ∃ t, answers sign st [.disk fs', .request ⟨ascii "POST", ascii "/v1/token", auth, i, p⟩] = [.ok (.accessToken t)] := by
  refine ⟨sign ⟨1800, i⟩, ?_⟩
  · show [serve sign st _] = _
    rw [(C54_issued sign st ⟨ascii "POST", ascii "/v1/token", auth, i, p⟩ rfl rfl _).2 ⟨u, hu, hp, rfl⟩]

/-- The disk of the example, and the same disk with one (empty) user record added. -/
def Spec.disk (content : Bytes) : FS := ⟨[([ascii "home", ascii "bbs", ascii ".BRD"], .file content), ([ascii "home", ascii "bbs"], .dir),
  ([ascii "home"], .dir), ([ascii "serverlet"], .dir)]⟩

theorem start_disk (content : Bytes) : startServer asciiCodec [ascii "serverlet"] (Spec.disk content) =
    .ok ⟨[], (Spec.slots 256 content).map (BoardHeader.parse asciiCodec)⟩ := by
  rw [((C66_exact asciiCodec [ascii "serverlet"] (Spec.disk content)).1 _)]
  constructor
  · exact .absent [ascii "home", ascii "bbs", ascii ".PASSWDS"] rfl rfl
  · exact .present [ascii "home", ascii "bbs", ascii ".BRD"] content rfl rfl

theorem C65_refuted : ¬ Spec.C65 := by
  intro h
  have := h asciiCodec [ascii "serverlet"] (fun _ => []) _ _ _ _ ⟨ascii "GET", ascii "/v1/boards", [], [], []⟩
    (start_disk []) (start_disk [0])
  rw [C65_exact, C64_everyone] at this
  simp only [List.filterMap_cons, List.filterMap_nil, C64_everyone] at this
  injection this with this
  injection this with this
  injection this with this
  have := congrArg List.length this
  simp [Spec.slots] at this

/-- What holds: as long as the two lists on the disk are those loaded, the answers are those of a service started now. -/
theorem C65_partial (c : Codec) (cwd : Path) (sign : Claims → Bytes) (fs fs' : FS) (st : ServerState) (r : Request)
    (h : startServer c cwd fs = .ok st)
    (hu : ∀ us, Spec.ListFile 512 (Userec.parse c) cwd fs (ascii "../home/bbs/.PASSWDS") us →
      Spec.ListFile 512 (Userec.parse c) cwd fs' (ascii "../home/bbs/.PASSWDS") us)
    (hb : ∀ bs, Spec.ListFile 256 (BoardHeader.parse c) cwd fs (ascii "../home/bbs/.BRD") bs →
      Spec.ListFile 256 (BoardHeader.parse c) cwd fs' (ascii "../home/bbs/.BRD") bs) :
    startServer c cwd fs' = .ok st ∧ answers sign st [.disk fs', .request r] = [serve sign st r] := by
  have hf := ((C66_exact c cwd fs).1 st).1 h
  exact ⟨((C66_exact c cwd fs').1 st).2 ⟨hu _ hf.1, hb _ hf.2⟩, rfl⟩

/-- The handler that is not registered would crash on a path with exactly two slashes. -/
theorem C56_getClass (p : Bytes) : ¬ (getClassID p).Returns ↔ (splitByte slash p).length = 3 := by
  unfold getClassID
  simp only
  generalize splitByte slash p = seg
  match seg with
  | [] => simp [Res.Returns]
  | [_] => simp [Res.Returns]
  | [_, _] => simp [Res.Returns]
  | [_, _, _] => simp [Res.Returns]
  | _ :: _ :: _ :: _ :: l => simp [Res.Returns]

/-- The class that is asked for: the part after the third slash, and `0` for paths with fewer than two. -/
theorem C56_getClass_value (p : Bytes) :
    (∀ a b d s l, splitByte slash p = a :: b :: d :: s :: l → getClassID p = .ok s) ∧
    ((splitByte slash p).length ≤ 2 → getClassID p = .ok [48]) := by
  unfold getClassID
  simp only
  refine ⟨fun a b d s l h => by rw [h]; simp, fun h => by rw [if_neg (by omega)]; decide⟩

example : splitByte slash (ascii "/v1/classes/7") = [[], ascii "v1", ascii "classes", ascii "7"] ∧ (splitByte slash (ascii "/v1")).length ≤ 2 := by
  decide +kernel

example (i p : Bytes) : ∃ u st, Spec.FirstWithID (ServerState.userRecs st) i u ∧ Spec.Accepts u p := by
  obtain ⟨u, h1, h2⟩ := login_exists i p
  exact ⟨u, ⟨[u], []⟩, ⟨[], [], rfl, h1, by simp⟩, h2⟩

example : ¬ (getClassID (ascii "/v1/classes")).Returns := (C56_getClass _).2 (by decide)

end Verif
