import Verif.Model.Handles
/-!
# C108–C110: open files, locks, and writes without a lock
-/

namespace Verif

/-- What a list of events leaves behind: files open, locks not given back, writes done while no lock was held, and operations
on files or locks that are not held. -/
structure Spec.Held where
  files : List Nat
  locks : List Nat
  bare : Nat
  stray : Nat
  deriving DecidableEq, Repr

/-- The effect of an event. -/
def Spec.Held.step (s : Spec.Held) (e : Ev) : Spec.Held :=
  match e.op with
  | .open => if e.out = .ok then { s with files := e.handle :: s.files } else s
  | .close => if e.handle ∈ s.files then { s with files := s.files.erase e.handle } else { s with stray := s.stray + 1 }
  | .lock => if e.out = .fail then s else { s with locks := e.handle :: s.locks }
  | .unlock => if e.handle ∈ s.locks then { s with locks := s.locks.erase e.handle } else { s with stray := s.stray + 1 }
  | .write | .truncate =>
    { s with bare := s.bare + (if s.locks = [] then 1 else 0), stray := s.stray + (if e.handle ∈ s.files then 0 else 1) }
  | .read | .seek | .stat | .map => { s with stray := s.stray + (if e.handle ∈ s.files then 0 else 1) }
  | .unmap | .convert => s

def Spec.held (t : List Ev) : Spec.Held := t.foldl Spec.Held.step ⟨[], [], 0, 0⟩

open Spec

theorem held_snoc (t : List Ev) (e : Ev) : held (t ++ [e]) = (held t).step e := by
  unfold held; rw [List.foldl_append]; rfl

/-- From the state `s`, every run of `m` that returns ends as `Q` says. -/
def Runs (m : Sys α) (s : Held) (Q : α → Held → Prop) : Prop :=
  ∀ w t a t', held t = s → m w t = (some a, t') → Q a (held t')

theorem runs_pure {a : α} {s : Held} {Q : α → Held → Prop} (h : Q a s) : Runs (pure a) s Q := by
  intro w t a' t' hs e
  change (some a, t) = _ at e
  injection e with e1 e2
  injection e1 with e1
  rw [← e1, ← e2, hs]
  exact h

theorem runs_bind {m : Sys α} {f : α → Sys β} {s : Held} {R : α → Held → Prop} {Q : β → Held → Prop} (h1 : Runs m s R)
    (h2 : ∀ a s', R a s' → Runs (f a) s' Q) : Runs (m >>= f) s Q := by
  intro w t b t' hs e
  change Sys.bind m f w t = _ at e
  unfold Sys.bind at e
  match hm : m w t with
  | (some a, u) =>
    rw [hm] at e
    exact h2 a _ (h1 w t a u hs hm) w u b t' rfl e
  | (none, u) =>
    rw [hm] at e
    injection e with e _
    cases e

theorem runs_call {o : Op} {h : Nat} {s : Held} {Q : Outcome → Held → Prop} (hq : ∀ x, Q x (s.step ⟨o, h, x⟩)) :
    Runs (Sys.call o h) s Q := by
  intro w t a t' hs e
  unfold Sys.call at e
  injection e with e1 e2
  injection e1 with e1
  rw [← e1, ← e2, held_snoc, hs]
  exact hq _

theorem runs_open {s : Held} {Q : Option Nat → Held → Prop} (hq : ∀ h, Q (some h) { s with files := h :: s.files }) (hn : Q none s) :
    Runs Sys.openAny s Q := by
  intro w t a t' hs e
  unfold Sys.openAny at e
  injection e with e1 e2
  injection e1 with e1
  rw [← e1, ← e2, held_snoc, hs]
  simp only [Held.step]
  by_cases h : w t.length = .ok
  · rw [if_pos h, if_pos h]; exact hq _
  · rw [if_neg h, if_neg h]; exact hn

theorem runs_never {s : Held} {Q : α → Held → Prop} : Runs (Sys.never : Sys α) s Q := by
  intro w t a t' hs e
  unfold Sys.never at e
  injection e with e _
  cases e

theorem runs_if {c : Prop} [Decidable c] {m n : Sys α} {s : Held} {Q : α → Held → Prop} (h1 : c → Runs m s Q) (h2 : ¬ c → Runs n s Q) :
    Runs (if c then m else n) s Q := by
  split
  · exact h1 (by assumption)
  · exact h2 (by assumption)

/-- Leaves everything as it was. -/
def Same (m : Sys α) (s : Held) : Prop := Runs m s fun _ s' => s' = s

/-- A call of the system that changes nothing in this state. -/
theorem same_then {o : Op} {h : Nat} {s : Held} {f : Outcome → Sys α} {Q : α → Held → Prop} (hs : ∀ x, s.step ⟨o, h, x⟩ = s)
    (hf : ∀ x, Runs (f x) s Q) : Runs (Sys.call o h >>= f) s Q :=
  runs_bind (R := fun _ s' => s' = s) (runs_call hs) fun x s' e => by rw [e]; exact hf x

theorem step_read {s : Held} {h : Nat} (hm : h ∈ s.files) (x : Outcome) : s.step ⟨.read, h, x⟩ = s := by simp [Held.step, hm]
theorem step_seek {s : Held} {h : Nat} (hm : h ∈ s.files) (x : Outcome) : s.step ⟨.seek, h, x⟩ = s := by simp [Held.step, hm]
theorem step_stat {s : Held} {h : Nat} (hm : h ∈ s.files) (x : Outcome) : s.step ⟨.stat, h, x⟩ = s := by simp [Held.step, hm]
theorem step_map {s : Held} {h : Nat} (hm : h ∈ s.files) (x : Outcome) : s.step ⟨.map, h, x⟩ = s := by simp [Held.step, hm]
theorem step_convert {s : Held} {h : Nat} (x : Outcome) : s.step ⟨.convert, h, x⟩ = s := rfl
theorem step_write {s : Held} {h : Nat} (hm : h ∈ s.files) (hl : s.locks ≠ []) (x : Outcome) : s.step ⟨.write, h, x⟩ = s := by
  simp [Held.step, hm, hl]
theorem step_truncate {s : Held} {h : Nat} (hm : h ∈ s.files) (hl : s.locks ≠ []) (x : Outcome) : s.step ⟨.truncate, h, x⟩ = s := by
  simp [Held.step, hm, hl]

theorem readTurns_same {s : Held} {h : Nat} (hm : h ∈ s.files) (c : Bool) (n : Nat) : Same (readTurns c h n) s := by
  induction n with
  | zero => exact runs_never
  | succ n ih =>
    unfold readTurns
    refine same_then (step_read hm) fun x => runs_if (fun _ => runs_pure rfl) fun _ => runs_if (fun _ => runs_pure rfl) fun _ => ?_
    exact same_then step_convert fun y => runs_if (fun _ => runs_pure rfl) fun _ => ih

theorem slurp_same {s : Held} {h : Nat} (hm : h ∈ s.files) (n : Nat) : Same (slurp h n) s := by
  induction n with
  | zero => exact runs_never
  | succ n ih =>
    unfold slurp
    exact same_then (step_read hm) fun x => runs_if (fun _ => runs_pure rfl) fun _ => runs_if (fun _ => runs_pure rfl) fun _ => ih

theorem copyLoop_same {s : Held} {fo fi : Nat} (ho : fo ∈ s.files) (hi : fi ∈ s.files) (hl : s.locks ≠ []) (n : Nat) :
    Same (copyLoop fo fi n) s := by
  induction n with
  | zero => exact runs_never
  | succ n ih =>
    unfold copyLoop
    refine same_then (step_read hi) fun x => runs_if (fun _ => runs_pure rfl) fun _ => runs_if (fun _ => runs_pure rfl) fun _ => ?_
    exact same_then (step_write ho hl) fun y => runs_if (fun _ => runs_pure rfl) fun _ => ih

theorem convertLines_same {s : Held} {h : Nat} (n : Nat) : Same (convertLines h n) s := by
  induction n with
  | zero => exact runs_never
  | succ n ih =>
    unfold convertLines
    exact same_then step_convert fun x => runs_if (fun _ => runs_pure rfl) fun _ => runs_if (fun _ => runs_pure rfl) fun _ => ih

theorem scanLoop_same {s : Held} {h : Nat} (hm : h ∈ s.files) (f : Bool) (n : Nat) : Same (scanLoop f h n) s := by
  induction n with
  | zero => exact runs_never
  | succ n ih =>
    unfold scanLoop
    refine same_then (step_read hm) fun x => runs_bind (convertLines_same n) ?_
    rintro c _ rfl
    refine runs_if (fun _ => runs_pure rfl) fun _ => runs_if (fun _ => runs_pure rfl) fun _ => runs_if (fun _ => ?_) fun _ => ih
    exact runs_if (fun _ => runs_never) fun _ => runs_pure rfl

/-- Opening, a body, and closing at the end. -/
theorem closing_runs {body : Nat → Sys Bool} {s : Held} {Q : Bool → Held → Prop}
    (hb : ∀ h, Runs (body h) { s with files := h :: s.files } fun r s' => ∃ s'', s' = { s'' with files := h :: s''.files } ∧ Q r s'')
    (hn : Q false s) : Runs (closing body) s Q := by
  unfold closing
  refine runs_bind (R := fun o s' => (o = none ∧ s' = s) ∨ ∃ h, o = some h ∧ s' = { s with files := h :: s.files })
    (runs_open (fun h => Or.inr ⟨h, rfl, rfl⟩) (Or.inl ⟨rfl, rfl⟩)) ?_
  rintro _ _ (⟨rfl, rfl⟩ | ⟨h, rfl, rfl⟩)
  · exact runs_pure hn
  · unfold Sys.deferring
    refine runs_bind (hb h) ?_
    rintro r s' ⟨s'', rfl, hq⟩
    refine runs_bind (R := fun _ u => u = s'') (runs_call fun x => ?_) ?_
    · simp [Held.step]
    · rintro _ _ rfl
      exact runs_pure hq

theorem closing_same {body : Nat → Sys Bool} {s : Held} (hb : ∀ h, Same (body h) { s with files := h :: s.files }) :
    Same (closing body) s := by
  refine closing_runs (fun h => ?_) rfl
  intro w t a t' hs e
  exact ⟨s, hb h w t a t' hs e, rfl⟩

/-- Locking, a body, and unlocking at the end. -/
theorem locking_same {h : Nat} {body : Sys Bool} {s : Held} (hb : Same body { s with locks := h :: s.locks }) : Same (locking h body) s := by
  unfold locking
  refine runs_bind (R := fun o s' => (o = .fail ∧ s' = s) ∨ (o ≠ .fail ∧ s' = { s with locks := h :: s.locks })) (runs_call fun x => ?_) ?_
  · by_cases hx : x = .fail
    · exact Or.inl ⟨hx, by simp [Held.step, hx]⟩
    · exact Or.inr ⟨hx, by simp [Held.step, hx]⟩
  · rintro o s' (⟨ho, rfl⟩ | ⟨ho, rfl⟩)
    · rw [if_pos ho]; exact runs_pure rfl
    · rw [if_neg ho]
      unfold Sys.deferring
      refine runs_bind hb ?_
      rintro r _ rfl
      refine runs_bind (R := fun _ u => u = s) (runs_call fun x => ?_) ?_
      · simp [Held.step]
      · rintro _ _ rfl
        exact runs_pure rfl

theorem write_same {h : Nat} {s : Held} (hm : h ∈ s.files) (hl : s.locks ≠ []) :
    Same (do let o ← Sys.call .write h; pure (o ≠ .fail : Bool)) s :=
  same_then (step_write hm hl) fun _ => runs_pure rfl

/-! ## The calls that leave everything as it was -/

theorem openFileHeaderFile_same (n : Nat) (s : Held) : Same (openFileHeaderFileSys n) s :=
  closing_same fun h => readTurns_same (by simp) _ _

theorem readArticle_same (n : Nat) (s : Held) : Same (readArticleSys n) s := closing_same fun h => slurp_same (by simp) _

theorem readFile_same (n : Nat) (s : Held) : Same (readFileSys n) s :=
  closing_same fun h => same_then (step_stat (by simp)) fun _ => slurp_same (by simp) _

theorem chkIsDir_same (s : Held) : Same chkIsDirSys s :=
  closing_same fun h => same_then (step_stat (by simp)) fun _ => runs_pure rfl

theorem writeArticle_same (s : Held) : Same writeArticleSys s :=
  closing_same fun h => locking_same (write_same (by simp) (by simp))

theorem appendFileHeader_same (s : Held) : Same appendFileHeaderSys s :=
  closing_same fun h => locking_same (same_then step_convert fun _ => runs_if (fun _ => runs_pure rfl) fun _ =>
    write_same (by simp) (by simp))

theorem updateFileHeader_same (s : Held) : Same updateFileHeaderSys s :=
  closing_same fun h => locking_same (same_then step_convert fun _ => runs_if (fun _ => runs_pure rfl) fun _ =>
    same_then (step_seek (by simp)) fun _ => runs_if (fun _ => runs_pure rfl) fun _ => write_same (by simp) (by simp))

theorem nameLoop_same {k : Nat → Sys Bool} {s : Held} (hk : ∀ h, Runs (k h) { s with files := h :: s.files } fun _ s' => s' = s) (n : Nat) :
    Same (nameLoop k n) s := by
  induction n with
  | zero => exact runs_never
  | succ n ih =>
    unfold nameLoop
    refine same_then step_convert fun _ => runs_if (fun _ => runs_pure rfl) fun _ => ?_
    refine runs_bind (R := fun o s' => (o = none ∧ s' = s) ∨ ∃ h, o = some h ∧ s' = { s with files := h :: s.files })
      (runs_open (fun h => Or.inr ⟨h, rfl, rfl⟩) (Or.inl ⟨rfl, rfl⟩)) ?_
    rintro _ _ (⟨rfl, rfl⟩ | ⟨h, rfl, rfl⟩)
    · exact ih
    · exact hk h

theorem createFilename_same (n : Nat) (s : Held) : Same (createFilenameSys n) s :=
  nameLoop_same (fun h => runs_bind (R := fun _ u => u = s) (runs_call fun x => by simp [Held.step]) fun _ _ e => by
    rw [e]; exact runs_pure rfl) n

theorem newArticleRecord_same (n : Nat) (s : Held) : Same (newArticleRecordSys n) s := by
  refine nameLoop_same (fun h => ?_) n
  unfold Sys.deferring
  refine runs_bind (locking_same (write_same (by simp) (by simp))) ?_
  rintro r _ rfl
  exact runs_bind (R := fun _ u => u = s) (runs_call fun x => by simp [Held.step]) fun _ _ e => by rw [e]; exact runs_pure rfl

/-! ## The calls that leave something behind -/

/-- A write without a lock. -/
theorem bare_runs (s : Held) : Runs (closing fun h => do let o ← Sys.call .write h; pure (o ≠ .fail : Bool)) s
    fun r s' => s' = s ∧ r = false ∨ s' = { s with bare := s.bare + (if s.locks = [] then 1 else 0) } := by
  refine closing_runs (fun h => ?_) (Or.inl ⟨rfl, rfl⟩)
  refine runs_bind (R := fun _ u => u = { s with files := h :: s.files, bare := s.bare + (if s.locks = [] then 1 else 0) })
    (runs_call fun x => by simp [Held.step]) ?_
  rintro x _ rfl
  exact runs_pure ⟨_, rfl, Or.inr rfl⟩

/-- A lock is given back if the call succeeds. -/
theorem appendBoardHeader_runs (s : Held) : Runs appendBoardHeaderSys s
    fun r s' => s' = s ∨ (r = false ∧ ∃ h, s' = { s with locks := h :: s.locks }) := by
  refine closing_runs (fun h => ?_) (Or.inl rfl)
  refine runs_bind (R := fun o s' => (o = .fail ∧ s' = { s with files := h :: s.files }) ∨
    (o ≠ .fail ∧ s' = { s with files := h :: s.files, locks := h :: s.locks })) (runs_call fun x => ?_) ?_
  · by_cases hx : x = .fail
    · exact Or.inl ⟨hx, by simp [Held.step, hx]⟩
    · exact Or.inr ⟨hx, by simp [Held.step, hx]⟩
  rintro o s' (⟨ho, rfl⟩ | ⟨ho, rfl⟩)
  · rw [if_pos ho]; exact runs_pure ⟨s, rfl, Or.inl rfl⟩
  · rw [if_neg ho]
    refine same_then step_convert fun _ => runs_if (fun _ => runs_pure ⟨{ s with locks := h :: s.locks }, rfl, Or.inr ⟨rfl, h, rfl⟩⟩) fun _ => ?_
    refine same_then (step_write (by simp) (by simp)) fun _ =>
      runs_if (fun _ => runs_pure ⟨{ s with locks := h :: s.locks }, rfl, Or.inr ⟨rfl, h, rfl⟩⟩) fun _ => ?_
    refine runs_bind (R := fun _ u => u = { s with files := h :: s.files }) (runs_call fun x => by simp [Held.step]) ?_
    rintro _ _ rfl
    exact runs_pure ⟨s, rfl, Or.inl rfl⟩

theorem removeBoardHeader_runs (n : Nat) (s : Held) : Runs (removeBoardHeaderSys n) s
    fun r s' => s' = s ∨ (r = false ∧ ∃ h, s' = { s with locks := h :: s.locks }) := by
  refine closing_runs (fun h => ?_) (Or.inl rfl)
  refine runs_bind (R := fun o s' => (o = .fail ∧ s' = { s with files := h :: s.files }) ∨
    (o ≠ .fail ∧ s' = { s with files := h :: s.files, locks := h :: s.locks })) (runs_call fun x => ?_) ?_
  · by_cases hx : x = .fail
    · exact Or.inl ⟨hx, by simp [Held.step, hx]⟩
    · exact Or.inr ⟨hx, by simp [Held.step, hx]⟩
  rintro o s' (⟨ho, rfl⟩ | ⟨ho, rfl⟩)
  · rw [if_pos ho]; exact runs_pure ⟨s, rfl, Or.inl rfl⟩
  · rw [if_neg ho]
    have bad : (fun (r : Bool) (s' : Held) => ∃ s'', s' = { s'' with files := h :: s''.files } ∧
        (s'' = s ∨ (r = false ∧ ∃ h, s'' = { s with locks := h :: s.locks }))) false
        { s with files := h :: s.files, locks := h :: s.locks } := ⟨{ s with locks := h :: s.locks }, rfl, Or.inr ⟨rfl, h, rfl⟩⟩
    refine closing_runs (fun g => ?_) bad
    have leave : ∃ u : Held, ({ s with files := g :: h :: s.files, locks := h :: s.locks } : Held) = { u with files := g :: u.files } ∧
        ∃ s'', u = { s'' with files := h :: s''.files } ∧ (s'' = s ∨ (false = false ∧ ∃ h, s'' = { s with locks := h :: s.locks })) :=
      ⟨{ s with files := h :: s.files, locks := h :: s.locks }, rfl, bad⟩
    refine same_then (step_seek (by simp)) fun _ => runs_if (fun _ => runs_pure leave) fun _ => ?_
    refine same_then (step_seek (by simp)) fun _ => runs_if (fun _ => runs_pure leave) fun _ => ?_
    refine runs_bind (copyLoop_same (by simp) (by simp) (by simp) n) ?_
    rintro c _ rfl
    refine runs_if (fun _ => runs_pure leave) fun _ => ?_
    refine same_then (step_seek (by simp)) fun _ => runs_if (fun _ => runs_pure leave) fun _ => ?_
    refine same_then (step_truncate (by simp) (by simp)) fun _ => ?_
    refine runs_bind (R := fun _ u => u = { s with files := g :: h :: s.files }) (runs_call fun x => by simp [Held.step]) ?_
    rintro _ _ rfl
    exact runs_pure ⟨{ s with files := h :: s.files }, rfl, s, rfl, Or.inl rfl⟩

/-- A file that is not closed. -/
theorem unclosed_runs {body : Nat → Sys Bool} (hb : ∀ h s, h ∈ s.files → Same (body h) s) (w : Nat → Outcome) (t : List Ev) (r : Bool)
    (t' : List Ev) (e : unclosed body w t = (some r, t')) :
    held t' = if w t.length = .ok then { held t with files := t.length :: (held t).files } else held t := by
  unfold unclosed at e
  change Sys.bind Sys.openAny _ w t = _ at e
  unfold Sys.bind Sys.openAny at e
  simp only at e
  have hs := held_snoc t ⟨.open, t.length, w t.length⟩
  by_cases h : w t.length = .ok
  · rw [if_pos h] at e ⊢
    rw [show (held t).step ⟨.open, t.length, w t.length⟩ = { held t with files := t.length :: (held t).files } by simp [Held.step, h]] at hs
    exact hb t.length _ (by simp) w _ r t' hs e
  · rw [if_neg h] at e ⊢
    rw [show (held t).step ⟨.open, t.length, w t.length⟩ = held t by simp [Held.step, h]] at hs
    have e : (some false, t ++ [⟨.open, t.length, w t.length⟩]) = (some r, t') := e
    injection e with _ e
    rw [← e, hs]

/-! ## The claims -/

/-- The calls that open files for their own use. -/
inductive Spec.FileCall : Sys Bool → Prop where
  | boards (n) : FileCall (openBoardHeaderFileSys n)
  | users (n) : FileCall (openUserecFileSys n)
  | online (n) : FileCall (openUserInfoCacheSys n)
  | formosa (n) : FileCall (openFormosaSys n)
  | recent (n) : FileCall (openLoginRecentSys n)
  | bad (n) : FileCall (openBadLoginSys n)
  | articles (n) : FileCall (openFileHeaderFileSys n)
  | article (n) : FileCall (readArticleSys n)
  | file (n) : FileCall (readFileSys n)
  | dir : FileCall chkIsDirSys
  | write : FileCall writeArticleSys
  | append : FileCall appendFileHeaderSys
  | update : FileCall updateFileHeaderSys
  | create (n) : FileCall (createFilenameSys n)
  | post (n) : FileCall (newArticleRecordSys n)
  | draft : FileCall writeDraftSys
  | line : FileCall appendArticleSys
  | addBoard : FileCall appendBoardHeaderSys
  | removeBoard (n) : FileCall (removeBoardHeaderSys n)

/-- The list readers that never close. -/
inductive Spec.Unclosed : Sys Bool → Prop where
  | boards (n) : Unclosed (openBoardHeaderFileSys n)
  | users (n) : Unclosed (openUserecFileSys n)
  | online (n) : Unclosed (openUserInfoCacheSys n)
  | formosa (n) : Unclosed (openFormosaSys n)
  | recent (n) : Unclosed (openLoginRecentSys n)
  | bad (n) : Unclosed (openBadLoginSys n)

/-- What every call does, in one statement. -/
theorem fileCall_cases {m : Sys Bool} (h : FileCall m) :
    Unclosed m ∨ (∀ s, Same m s) ∨ ((m = writeDraftSys ∨ m = appendArticleSys) ∧
      ∀ s, Runs m s fun r s' => s' = s ∧ r = false ∨ s' = { s with bare := s.bare + (if s.locks = [] then 1 else 0) }) ∨
    ((m = appendBoardHeaderSys ∨ ∃ n, m = removeBoardHeaderSys n) ∧
      ∀ s, Runs m s fun r s' => s' = s ∨ (r = false ∧ ∃ h, s' = { s with locks := h :: s.locks })) := by
  cases h with
  | boards n => exact Or.inl (.boards n)
  | users n => exact Or.inl (.users n)
  | online n => exact Or.inl (.online n)
  | formosa n => exact Or.inl (.formosa n)
  | recent n => exact Or.inl (.recent n)
  | bad n => exact Or.inl (.bad n)
  | articles n => exact Or.inr (Or.inl (openFileHeaderFile_same n))
  | article n => exact Or.inr (Or.inl (readArticle_same n))
  | file n => exact Or.inr (Or.inl (readFile_same n))
  | dir => exact Or.inr (Or.inl chkIsDir_same)
  | write => exact Or.inr (Or.inl writeArticle_same)
  | append => exact Or.inr (Or.inl appendFileHeader_same)
  | update => exact Or.inr (Or.inl updateFileHeader_same)
  | create n => exact Or.inr (Or.inl (createFilename_same n))
  | post n => exact Or.inr (Or.inl (newArticleRecord_same n))
  | draft => exact Or.inr (Or.inr (Or.inl ⟨Or.inl rfl, bare_runs⟩))
  | line => exact Or.inr (Or.inr (Or.inl ⟨Or.inr rfl, bare_runs⟩))
  | addBoard => exact Or.inr (Or.inr (Or.inr ⟨Or.inl rfl, appendBoardHeader_runs⟩))
  | removeBoard n => exact Or.inr (Or.inr (Or.inr ⟨Or.inr ⟨n, rfl⟩, removeBoardHeader_runs n⟩))

/-- The full claim of C108: a call that returns has closed every file that it opened. -/
def Spec.C108 : Prop := ∀ m, FileCall m → ∀ w t r t', m w t = (some r, t') → (held t').files = (held t).files

/-- **C108, exactly**: the six list readers leave the file open whenever they could open it; apart from that nothing changes. -/
theorem C108_unclosed_exact (m : Sys Bool) (hm : Unclosed m) (w : Nat → Outcome) (t : List Ev) (r : Bool) (t' : List Ev)
    (e : m w t = (some r, t')) :
    held t' = if w t.length = .ok then { held t with files := t.length :: (held t).files } else held t := by
  cases hm with
  | boards n => exact unclosed_runs (fun h s hs => readTurns_same hs _ _) w t r t' e
  | users n => exact unclosed_runs (fun h s hs => readTurns_same hs _ _) w t r t' e
  | online n => exact unclosed_runs (fun h s hs => readTurns_same hs _ _) w t r t' e
  | formosa n => exact unclosed_runs (fun h s hs => readTurns_same hs _ _) w t r t' e
  | recent n => exact unclosed_runs (fun h s hs => scanLoop_same hs _ _) w t r t' e
  | bad n => exact unclosed_runs (fun h s hs => scanLoop_same hs _ _) w t r t' e

/-- **C108, the part that holds**: all other calls close what they open, whatever fails on the way. (Missing for the full claim: the six
list readers.) -/
theorem C108_closed_partial (m : Sys Bool) (hm : FileCall m) (hu : ¬ Unclosed m) (w : Nat → Outcome) (t : List Ev) (r : Bool)
    (t' : List Ev) (e : m w t = (some r, t')) : (held t').files = (held t).files := by
  rcases fileCall_cases hm with h | h | ⟨_, h⟩ | ⟨_, h⟩
  · exact absurd h hu
  · rw [h _ w t r t' rfl e]
  · rcases h _ w t r t' rfl e with ⟨h, _⟩ | h <;> rw [h]
  · rcases h _ w t r t' rfl e with h | ⟨_, g, h⟩ <;> rw [h]

theorem not_unclosed_update : ¬ Unclosed updateFileHeaderSys := by
  intro h
  have key : ∀ m, Unclosed m → (m (fun i => if i = 0 then .ok else .eof) []).2.length ≤ 3 := by
    intro m hm
    cases hm with
    | boards n => cases n <;> exact Nat.le_of_ble_eq_true rfl
    | users n => cases n <;> exact Nat.le_of_ble_eq_true rfl
    | online n => cases n <;> exact Nat.le_of_ble_eq_true rfl
    | formosa n => cases n <;> exact Nat.le_of_ble_eq_true rfl
    | recent n => rcases n with _ | _ | n <;> exact Nat.le_of_ble_eq_true rfl
    | bad n => rcases n with _ | _ | n <;> exact Nat.le_of_ble_eq_true rfl
  exact absurd (key _ h) (by decide)

example : FileCall updateFileHeaderSys ∧ ¬ Unclosed updateFileHeaderSys ∧ updateFileHeaderSys (fun i => if i = 3 then .fail else .ok) [] =
    (some false, [⟨.open, 0, .ok⟩, ⟨.lock, 0, .ok⟩, ⟨.convert, 0, .ok⟩, ⟨.seek, 0, .fail⟩, ⟨.unlock, 0, .ok⟩, ⟨.close, 0, .ok⟩]) :=
  ⟨.update, not_unclosed_update, by decide⟩

/-- An oracle: the file can be opened and is empty. -/
def Spec.emptyFile (i : Nat) : Outcome := if i % 2 = 0 then .ok else .eof

/-- **C108 is false of the code**: reading the list of boards leaves a file open. -/
theorem C108_closed_refuted : ¬ Spec.C108 := by
  intro h
  have := h _ (.boards 1) Spec.emptyFile [] true [⟨.open, 0, .ok⟩, ⟨.read, 0, .eof⟩] (by decide)
  exact absurd this (by decide)

/-- One call after the other. -/
def Spec.times (m : Sys Bool) : Nat → Sys Unit
  | 0 => pure ()
  | n + 1 => do
    let _ ← m
    times m n

/-- **C108.** Reading the user list `n` times leaves `n` files open. -/
theorem C108_piles_up (n : Nat) : ∃ t, times (openUserecFileSys 1) n Spec.emptyFile [] = (some (), t) ∧ (held t).files.length = n := by
  have key : ∀ n t, t.length % 2 = 0 → ∃ t', times (openUserecFileSys 1) n Spec.emptyFile t = (some (), t') ∧ t'.length % 2 = 0 ∧
      (held t').files.length = (held t).files.length + n := by
    intro n
    induction n with
    | zero => exact fun t ht => ⟨t, rfl, ht, rfl⟩
    | succ n ih =>
      intro t ht
      have h0 : Spec.emptyFile t.length = .ok := by unfold Spec.emptyFile; rw [if_pos ht]
      have h1 : Spec.emptyFile (t.length + 1) = .eof := by unfold Spec.emptyFile; rw [if_neg (by omega)]
      have e : openUserecFileSys 1 Spec.emptyFile t = (some true, t ++ [⟨.open, t.length, .ok⟩] ++ [⟨.read, t.length, .eof⟩]) := by
        unfold openUserecFileSys unclosed
        change Sys.bind Sys.openAny _ Spec.emptyFile t = _
        unfold Sys.bind Sys.openAny
        simp only [h0, if_true]
        unfold readTurns
        change Sys.bind (Sys.call .read t.length) _ Spec.emptyFile _ = _
        unfold Sys.bind Sys.call
        simp only [List.length_append, List.length_cons, List.length_nil, h1, if_true]
        rfl
      obtain ⟨t', a1, a2, a3⟩ := ih (t ++ [⟨.open, t.length, .ok⟩] ++ [⟨.read, t.length, .eof⟩]) (by simp; omega)
      refine ⟨t', ?_, a2, ?_⟩
      · change Sys.bind (openUserecFileSys 1) _ Spec.emptyFile t = _
        unfold Sys.bind
        rw [e]
        exact a1
      · rw [a3, C108_unclosed_exact _ (.users 1) _ _ _ _ e, if_pos h0, List.length_cons]
        omega
  obtain ⟨t, h1, _, h3⟩ := key n [] rfl
  exact ⟨t, h1, by rw [h3]; simp [held]⟩

/-- A shared memory file: what the caller is given is open, and nothing else is. -/
def Spec.C108_mmap (m : Sys (Option Nat)) : Prop := ∀ w t r t', m w t = (some r, t') →
  (held t').files = r.toList ++ (held t).files

/-- **C108 is false of the code** for mapped files: when the size cannot be set, or the file cannot be mapped, it stays open. -/
theorem C108_mmap_refuted : ¬ Spec.C108_mmap createMmapSys ∧ ¬ Spec.C108_mmap openMmapSys := by
  constructor
  · intro h
    have := h (fun i => if i = 0 then .ok else .fail) [] none [⟨.open, 0, .ok⟩, ⟨.truncate, 0, .fail⟩] (by decide)
    exact absurd this (by decide)
  · intro h
    have := h (fun i => if i = 2 then .fail else .ok) [] none [⟨.open, 0, .ok⟩, ⟨.stat, 0, .ok⟩, ⟨.map, 0, .fail⟩] (by decide)
    exact absurd this (by decide)

theorem openFileSys_runs {s : Held} {h : Nat} (hm : h ∈ s.files) :
    Runs (openFileSys h) s fun r s' => s' = s ∧ (r = none ∨ r = some h) := by
  unfold openFileSys
  refine same_then (step_stat hm) fun _ => runs_if (fun _ => runs_pure ⟨rfl, Or.inl rfl⟩) fun _ => ?_
  exact same_then (step_map hm) fun _ => runs_if (fun _ => runs_pure ⟨rfl, Or.inl rfl⟩) fun _ => runs_pure ⟨rfl, Or.inr rfl⟩

theorem mapped_runs {body : Nat → Sys (Option Nat)}
    (hb : ∀ h s, h ∈ s.files → Runs (body h) s fun r s' => s'.files = s.files ∧ (r = none ∨ r = some h)) (w : Nat → Outcome)
    (t : List Ev) (r : Option Nat) (t' : List Ev)
    (e : (do match ← Sys.openAny with | none => pure none | some h => body h : Sys (Option Nat)) w t = (some r, t')) :
    (held t').files = (if w t.length = .ok then [t.length] else []) ++ (held t).files ∧
    ∀ h, r = some h → h = t.length ∧ w t.length = .ok := by
  change Sys.bind Sys.openAny _ w t = _ at e
  unfold Sys.bind Sys.openAny at e
  simp only at e
  have hs := held_snoc t ⟨.open, t.length, w t.length⟩
  by_cases h : w t.length = .ok
  · rw [if_pos h] at e ⊢
    rw [show (held t).step ⟨.open, t.length, w t.length⟩ = { held t with files := t.length :: (held t).files } by simp [Held.step, h]] at hs
    obtain ⟨h1, h2⟩ := hb t.length _ (by simp) w _ r t' hs e
    refine ⟨h1, fun g hg => ?_⟩
    rcases h2 with h2 | h2
    · rw [h2] at hg; cases hg
    · rw [h2] at hg; injection hg with hg; exact ⟨hg.symm, h⟩
  · rw [if_neg h] at e ⊢
    rw [show (held t).step ⟨.open, t.length, w t.length⟩ = held t by simp [Held.step, h]] at hs
    have e : (some none, t ++ [⟨.open, t.length, w t.length⟩]) = (some r, t') := e
    injection e with e1 e
    injection e1 with e1
    refine ⟨by rw [← e, hs]; rfl, fun g hg => ?_⟩
    rw [← e1] at hg; cases hg

/-- **C108, exactly** for mapped files: if the file could be opened it stays open, whether or not it could be mapped; a file that is
handed out is the one that was opened. -/
theorem C108_mmap_exact (m : Sys (Option Nat)) (hm : m = createMmapSys ∨ m = openMmapSys) (w : Nat → Outcome) (t : List Ev)
    (r : Option Nat) (t' : List Ev) (e : m w t = (some r, t')) :
    (held t').files = (if w t.length = .ok then [t.length] else []) ++ (held t).files ∧
    ∀ h, r = some h → h = t.length ∧ w t.length = .ok := by
  rcases hm with rfl | rfl
  · refine mapped_runs (body := fun h => do
      let o ← Sys.call .truncate h
      if o = .fail then pure none else openFileSys h) (fun h s hs => ?_) w t r t' e
    refine runs_bind (R := fun _ u => u.files = s.files) (runs_call fun x => by simp [Held.step]) fun x u hu => ?_
    refine runs_if (fun _ => runs_pure ⟨hu, Or.inl rfl⟩) fun _ => ?_
    intro w t a t' h1 h2
    have := openFileSys_runs (s := u) (h := h) (by rw [hu]; exact hs) w t a t' h1 h2
    exact ⟨by rw [this.1, hu], this.2⟩
  · refine mapped_runs (fun h s hs => ?_) w t r t' e
    intro w t a t' h1 h2
    have := openFileSys_runs hs w t a t' h1 h2
    exact ⟨by rw [this.1], this.2⟩

/-- **C108, the part that holds** for mapped files: a file that was handed out is gone once it is closed, even if the mapping cannot be
undone. (Missing for the full claim: errors after the file was opened.) -/
theorem C108_mmap_closed_partial (m : Sys (Option Nat)) (hm : m = createMmapSys ∨ m = openMmapSys) (w : Nat → Outcome) (t : List Ev)
    (h : Nat) (t₁ : List Ev) (e : m w t = (some (some h), t₁)) (w' : Nat → Outcome) (r : Bool) (t₂ : List Ev)
    (e' : closeMmapSys h w' t₁ = (some r, t₂)) : (held t₂).files = (held t).files ∧ (held t₂).stray = (held t₁).stray := by
  obtain ⟨h1, h2⟩ := C108_mmap_exact m hm w t _ t₁ e
  obtain ⟨h3, h4⟩ := h2 h rfl
  rw [if_pos h4, ← h3] at h1
  have : Runs (closeMmapSys h) (held t₁) fun _ u => u = { held t₁ with files := (held t).files } := by
    unfold closeMmapSys
    refine runs_bind (R := fun _ u => u = held t₁) (runs_call fun _ => rfl) ?_
    rintro _ _ rfl
    refine runs_bind (R := fun _ u => u = { held t₁ with files := (held t).files }) (runs_call fun _ => by simp [Held.step, h1]) ?_
    rintro _ _ rfl
    exact runs_pure rfl
  have := this w' t₁ r t₂ rfl e'
  rw [this]
  exact ⟨rfl, rfl⟩

example : ∃ t₁ t₂, createMmapSys (fun _ => .ok) [] = (some (some 0), t₁) ∧ closeMmapSys 0 (fun _ => .fail) t₁ = (some false, t₂) := ⟨_, _, rfl, rfl⟩

/-! ## C109: locks -/

/-- The full claim of C109: a call that returns has given back every lock that it took. -/
def Spec.C109 : Prop := ∀ m, FileCall m → ∀ w t r t', m w t = (some r, t') → (held t').locks = (held t).locks

/-- **C109, the part that holds**: locks are given back by all calls that succeed, and by all but two in any case. (Missing for the full
claim: adding and removing a board, when they fail.) -/
theorem C109_locks_partial (m : Sys Bool) (hm : FileCall m) (w : Nat → Outcome) (t : List Ev) (r : Bool) (t' : List Ev)
    (e : m w t = (some r, t')) (hr : r = true ∨ (m ≠ appendBoardHeaderSys ∧ ∀ n, m ≠ removeBoardHeaderSys n)) :
    (held t').locks = (held t).locks := by
  rcases fileCall_cases hm with h | h | ⟨_, h⟩ | ⟨hc, h⟩
  · rw [C108_unclosed_exact m h w t r t' e]
    split <;> rfl
  · rw [h _ w t r t' rfl e]
  · rcases h _ w t r t' rfl e with ⟨h, _⟩ | h <;> rw [h]
  · rcases h _ w t r t' rfl e with h | ⟨hf, g, h⟩
    · rw [h]
    · rcases hr with hr | hr
      · rw [hr] at hf; cases hf
      · rcases hc with hc | ⟨n, hc⟩
        · exact absurd hc hr.1
        · exact absurd hc (hr.2 n)

example : FileCall appendBoardHeaderSys ∧ ∃ t, appendBoardHeaderSys (fun _ => .ok) [] = (some true, t) ∧ t.length = 6 := ⟨.addBoard, _, rfl, rfl⟩

/-- **C109 is false of the code**: a failed write of a board record leaves the lock taken; so does a failed seek when one is removed. -/
theorem C109_locks_refuted : ¬ Spec.C109 := by
  intro h
  have := h _ .addBoard (fun i => if i = 3 then .fail else .ok) [] false
    [⟨.open, 0, .ok⟩, ⟨.lock, 0, .ok⟩, ⟨.convert, 0, .ok⟩, ⟨.write, 0, .fail⟩, ⟨.close, 0, .ok⟩] (by decide)
  exact absurd this (by decide)

example : removeBoardHeaderSys 5 (fun i => if i = 3 then .fail else .ok) [] =
    (some false, [⟨.open, 0, .ok⟩, ⟨.lock, 0, .ok⟩, ⟨.open, 2, .ok⟩, ⟨.seek, 0, .fail⟩, ⟨.close, 2, .ok⟩, ⟨.close, 0, .ok⟩]) := by decide

/-! ## C110: writes under a lock, and nothing on closed files -/

/-- The full claim of C110: a call writes only while it holds a lock. -/
def Spec.C110 : Prop := ∀ m, FileCall m → ∀ w t r t', m w t = (some r, t') → (held t').bare = (held t).bare

/-- **C110, the part that holds**: all calls but two write only while they hold a lock. (Missing for the full claim: saving a draft and
appending to an article.) -/
theorem C110_guarded_partial (m : Sys Bool) (hm : FileCall m) (h1 : m ≠ writeDraftSys) (h2 : m ≠ appendArticleSys) (w : Nat → Outcome)
    (t : List Ev) (r : Bool) (t' : List Ev) (e : m w t = (some r, t')) : (held t').bare = (held t).bare := by
  rcases fileCall_cases hm with h | h | ⟨hc, h⟩ | ⟨_, h⟩
  · rw [C108_unclosed_exact m h w t r t' e]
    split <;> rfl
  · rw [h _ w t r t' rfl e]
  · rcases hc with hc | hc
    · exact absurd hc h1
    · exact absurd hc h2
  · rcases h _ w t r t' rfl e with h | ⟨_, g, h⟩ <;> rw [h]

example : FileCall writeArticleSys ∧ writeArticleSys ≠ writeDraftSys ∧ writeArticleSys ≠ appendArticleSys ∧
    ∃ t, writeArticleSys (fun _ => .ok) [] = (some true, t) ∧ t.length = 5 := by
  refine ⟨.write, fun h => ?_, fun h => ?_, _, rfl, rfl⟩
  · exact absurd (congrFun (congrFun h fun _ => .ok) []) (by decide)
  · exact absurd (congrFun (congrFun h fun _ => .ok) []) (by decide)

/-- **C110 is false of the code**: drafts are saved, and articles appended to, without a lock. -/
theorem C110_guarded_refuted : ¬ Spec.C110 := by
  intro h
  have := h _ .line (fun _ => .ok) [] true [⟨.open, 0, .ok⟩, ⟨.write, 0, .ok⟩, ⟨.close, 0, .ok⟩] (by decide)
  exact absurd this (by decide)

/-- **C110, exactly**: those two write once outside a lock, if the file can be opened. -/
theorem C110_bare_exact (m : Sys Bool) (hm : m = writeDraftSys ∨ m = appendArticleSys) (w : Nat → Outcome) (t : List Ev) (ht : (held t).locks = []) :
    ∃ t', m w t = (some (decide (w t.length = .ok ∧ w (t.length + 1) ≠ .fail)), t') ∧
      (held t').bare = (held t).bare + (if w t.length = .ok then 1 else 0) := by
  have key : ∃ t', closing (fun h => do let o ← Sys.call .write h; pure (o ≠ .fail : Bool)) w t =
      (some (decide (w t.length = .ok ∧ w (t.length + 1) ≠ .fail)), t') ∧
      (held t').bare = (held t).bare + (if w t.length = .ok then 1 else 0) := by
    unfold closing
    change ∃ t', Sys.bind Sys.openAny _ w t = _ ∧ _
    unfold Sys.bind Sys.openAny
    simp only
    by_cases h : w t.length = .ok
    · rw [if_pos h, if_pos h, h]
      refine ⟨t ++ [⟨.open, t.length, .ok⟩] ++ [⟨.write, t.length, w (t.length + 1)⟩] ++ [⟨.close, t.length, w (t.length + 2)⟩], ?_, ?_⟩
      · change (some _, _) = _
        simp
      · rw [held_snoc, held_snoc, held_snoc]
        simp [Held.step, ht]
    · rw [if_neg h, if_neg h]
      refine ⟨t ++ [⟨.open, t.length, w t.length⟩], ?_, ?_⟩
      · simp only [h, false_and, decide_false]
        rfl
      · rw [held_snoc]
        simp [Held.step, h]
  rcases hm with rfl | rfl <;> exact key

example : writeDraftSys (fun _ => .ok) [] = (some true, [⟨.open, 0, .ok⟩, ⟨.write, 0, .ok⟩, ⟨.close, 0, .ok⟩]) := by decide

/-- **C110.** No call ever touches a file that it has closed or has not opened, or gives back a lock that it does not hold. -/
theorem C110_no_stray (m : Sys Bool) (hm : FileCall m) (w : Nat → Outcome) (t : List Ev) (r : Bool) (t' : List Ev)
    (e : m w t = (some r, t')) : (held t').stray = (held t).stray := by
  rcases fileCall_cases hm with h | h | ⟨_, h⟩ | ⟨_, h⟩
  · rw [C108_unclosed_exact m h w t r t' e]
    split <;> rfl
  · rw [h _ w t r t' rfl e]
  · rcases h _ w t r t' rfl e with ⟨h, _⟩ | h <;> rw [h]
  · rcases h _ w t r t' rfl e with h | ⟨_, g, h⟩ <;> rw [h]

end Verif
