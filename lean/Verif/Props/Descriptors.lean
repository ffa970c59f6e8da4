import Verif.Model.Descriptors
import Verif.Props.Handles
/-!
# C140: how many files a process has to have open at a time
-/

namespace Verif

/-- From `t` on the events `u` never need more than `n` files at a time: counted are those that are open, and one more when another is asked for. -/
def Spec.NeedsAtMost (n : Nat) (t u : List Ev) : Prop :=
  ∀ p e q, u = p ++ e :: q → (Spec.held (t ++ p)).files.length + (if e.op = .open then 1 else 0) ≤ n

/-- Between two collections there are at most `k` calls of those that leave their file open; `n` are already made. -/
inductive Spec.Sparse (k : Nat) : Nat → List Turn → Prop where
  | nil {n} : n ≤ k → Sparse k n []
  | collect {n ts} : n ≤ k → Sparse k 0 ts → Sparse k n (.collect :: ts)
  | leaving {n m ts} : Spec.Unclosed m → Sparse k (n + 1) ts → Sparse k n (.call m :: ts)
  | closing {n m ts} : Spec.FileCall m → ¬ Spec.Unclosed m → Sparse k n ts → Sparse k n (.call m :: ts)

open Spec

/-! ## Counting -/

theorem step_files (s : Held) (e : Ev) : (s.step e).files =
    match e.op with
    | .open => if e.out = .ok then e.handle :: s.files else s.files
    | .close => s.files.erase e.handle
    | _ => s.files := by
  obtain ⟨o, h, x⟩ := e
  cases o <;> simp only [Held.step]
  · split <;> rfl
  · split
    · rfl
    · rw [List.erase_of_not_mem (by assumption)]
  · split <;> rfl
  · split <;> rfl

theorem openFiles_snoc (t : List Ev) (e : Ev) : openFiles (t ++ [e]) =
    match e.op with
    | .open => if e.out = .ok then e.handle :: openFiles t else openFiles t
    | .close => (openFiles t).erase e.handle
    | _ => openFiles t := by
  unfold openFiles; rw [List.foldl_append]; rfl

theorem snoc_ind {α : Type} {P : List α → Prop} (h0 : P []) (h1 : ∀ l a, P l → P (l ++ [a])) (l : List α) : P l := by
  rw [← List.reverse_reverse l]
  induction l.reverse with
  | nil => exact h0
  | cons a l ih => rw [List.reverse_cons]; exact h1 _ _ ih

/-- The two ways of counting agree. -/
theorem openFiles_held (t : List Ev) : openFiles t = (held t).files := by
  induction t using snoc_ind with
  | h0 => rfl
  | h1 t e ih => rw [openFiles_snoc, held_snoc, step_files, ih]

/-- From `fs` open, `m` needs at most `B` files, and ends as `Q` says. -/
def Within (B : Nat) (m : Sys α) (fs : List Nat) (Q : α → List Nat → Prop) : Prop :=
  ∀ w t, (held t).files = fs → ∃ u, (m w t).2 = t ++ u ∧ NeedsAtMost B t u ∧ ∀ a, (m w t).1 = some a → Q a (held (t ++ u)).files

theorem needs_nil (B : Nat) (t : List Ev) : NeedsAtMost B t [] := by
  intro p e q h
  exact absurd h (by simp)

theorem needs_one {B : Nat} {t : List Ev} {e : Ev} (h : (held t).files.length + (if e.op = .open then 1 else 0) ≤ B) : NeedsAtMost B t [e] := by
  intro p e' q he
  cases p with
  | nil =>
    injection he with h1 h2
    rw [← h1, List.append_nil]
    exact h
  | cons a p =>
    injection he with _ h2
    exact absurd h2 (by simp)

theorem needs_append {B : Nat} {t u v : List Ev} (h1 : NeedsAtMost B t u) (h2 : NeedsAtMost B (t ++ u) v) : NeedsAtMost B t (u ++ v) := by
  intro p e q h
  rcases List.append_eq_append_iff.mp h with ⟨a, h3, h4⟩ | ⟨a, h3, h4⟩
  · rw [h3, ← List.append_assoc]
    exact h2 a e q h4
  · cases a with
    | nil =>
      rw [List.append_nil] at h3
      rw [← h3]
      have := h2 [] e q h4.symm
      rwa [List.append_nil] at this
    | cons x a =>
      injection h4 with h5 h6
      subst h5
      exact h1 p e a h3

theorem needs_mono {B C : Nat} {t u : List Ev} (h : NeedsAtMost B t u) (hc : B ≤ C) : NeedsAtMost C t u :=
  fun p e q he => Nat.le_trans (h p e q he) hc

theorem within_pure {B : Nat} {a : α} {fs : List Nat} {Q : α → List Nat → Prop} (h : Q a fs) : Within B (pure a) fs Q := by
  intro w t hs
  refine ⟨[], (List.append_nil t).symm, needs_nil B t, fun b hb => ?_⟩
  have : a = b := Option.some.inj hb
  rw [List.append_nil, hs, ← this]
  exact h

theorem within_bind {B : Nat} {m : Sys α} {f : α → Sys β} {fs : List Nat} {R : α → List Nat → Prop} {Q : β → List Nat → Prop}
    (h1 : Within B m fs R) (h2 : ∀ a fs', R a fs' → Within B (f a) fs' Q) : Within B (m >>= f) fs Q := by
  intro w t hs
  obtain ⟨u, e, hu, hR⟩ := h1 w t hs
  show ∃ u, (Sys.bind m f w t).2 = _ ∧ _ ∧ ∀ a, (Sys.bind m f w t).1 = some a → _
  unfold Sys.bind
  match hm : m w t with
  | (some a, t') =>
    rw [hm] at e hR
    have e : t' = t ++ u := e
    subst e
    obtain ⟨v, e2, hv, hQ⟩ := h2 a _ (hR a rfl) w (t ++ u) rfl
    refine ⟨u ++ v, by simpa only [List.append_assoc] using e2, needs_append hu hv, fun b hb => ?_⟩
    rw [← List.append_assoc]
    exact hQ b hb
  | (none, t') =>
    rw [hm] at e
    exact ⟨u, e, hu, fun a ha => by cases ha⟩

theorem within_call {B : Nat} {o : Op} {h : Nat} {fs : List Nat} {Q : Outcome → List Nat → Prop} (hb : fs.length ≤ B) (ho : o ≠ .open)
    (hq : ∀ x, Q x (if o = .close then fs.erase h else fs)) : Within B (Sys.call o h) fs Q := by
  intro w t hs
  refine ⟨[⟨o, h, w t.length⟩], rfl, needs_one (by simpa only [ho, if_false, Nat.add_zero, hs] using hb), fun a ha => ?_⟩
  have ha : w t.length = a := Option.some.inj ha
  rw [held_snoc, step_files, hs, ← ha]
  have := hq (w t.length)
  cases o <;> first | exact absurd rfl ho | simpa using this

theorem within_open {B : Nat} {fs : List Nat} {Q : Option Nat → List Nat → Prop} (hb : fs.length + 1 ≤ B) (hq : ∀ h, Q (some h) (h :: fs))
    (hn : Q none fs) : Within B Sys.openAny fs Q := by
  intro w t hs
  refine ⟨[⟨.open, t.length, w t.length⟩], rfl, needs_one (by simpa only [if_true, hs] using hb), fun a ha => ?_⟩
  have ha : (if w t.length = .ok then some t.length else none) = a := Option.some.inj ha
  rw [held_snoc, step_files, hs, ← ha]
  simp only
  split
  · exact hq _
  · exact hn

theorem within_never {B : Nat} {fs : List Nat} {Q : α → List Nat → Prop} : Within B (Sys.never : Sys α) fs Q := by
  intro w t _
  exact ⟨[], (List.append_nil t).symm, needs_nil B t, fun a ha => by cases ha⟩

theorem within_if {B : Nat} {c : Prop} [Decidable c] {m n : Sys α} {fs : List Nat} {Q : α → List Nat → Prop} (h1 : Within B m fs Q)
    (h2 : Within B n fs Q) : Within B (if c then m else n) fs Q := by
  split
  · exact h1
  · exact h2

/-- Leaves open what was open. -/
abbrev Keeps (B : Nat) (m : Sys α) (fs : List Nat) : Prop := Within B m fs fun _ fs' => fs' = fs

/-- A system call that neither opens nor closes, and what comes after it. -/
theorem within_then {B : Nat} {o : Op} {h : Nat} {fs : List Nat} {f : Outcome → Sys α} {Q : α → List Nat → Prop} (hb : fs.length ≤ B)
    (ho : o ≠ .open ∧ o ≠ .close) (hf : ∀ x, Within B (f x) fs Q) : Within B (Sys.call o h >>= f) fs Q :=
  within_bind (R := fun _ fs' => fs' = fs) (within_call hb ho.1 fun _ => by rw [if_neg ho.2]) fun x fs' e => by rw [e]; exact hf x

section
variable {B : Nat} {fs : List Nat} (hb : fs.length ≤ B)
include hb

theorem readTurns_keeps (c : Bool) (h n : Nat) : Keeps B (readTurns c h n) fs := by
  induction n with
  | zero => exact within_never
  | succ n ih =>
    unfold readTurns
    refine within_then hb (by decide) fun x => within_if (within_pure rfl) (within_if (within_pure rfl) ?_)
    exact within_then hb (by decide) fun y => within_if (within_pure rfl) ih

theorem slurp_keeps (h n : Nat) : Keeps B (slurp h n) fs := by
  induction n with
  | zero => exact within_never
  | succ n ih =>
    unfold slurp
    exact within_then hb (by decide) fun x => within_if (within_pure rfl) (within_if (within_pure rfl) ih)

theorem copyLoop_keeps (fo fi n : Nat) : Keeps B (copyLoop fo fi n) fs := by
  induction n with
  | zero => exact within_never
  | succ n ih =>
    unfold copyLoop
    refine within_then hb (by decide) fun x => within_if (within_pure rfl) (within_if (within_pure rfl) ?_)
    exact within_then hb (by decide) fun y => within_if (within_pure rfl) ih

theorem convertLines_keeps (h n : Nat) : Keeps B (convertLines h n) fs := by
  induction n with
  | zero => exact within_never
  | succ n ih =>
    unfold convertLines
    exact within_then hb (by decide) fun x => within_if (within_pure rfl) (within_if (within_pure rfl) ih)

theorem scanLoop_keeps (f : Bool) (h n : Nat) : Keeps B (scanLoop f h n) fs := by
  induction n with
  | zero => exact within_never
  | succ n ih =>
    unfold scanLoop
    refine within_then hb (by decide) fun x => within_bind (convertLines_keeps hb h n) ?_
    rintro c _ rfl
    exact within_if (within_pure rfl) (within_if (within_pure rfl) (within_if (within_if within_never (within_pure rfl)) ih))

theorem locking_keeps {h : Nat} {body : Sys Bool} (hbody : Keeps B body fs) : Keeps B (locking h body) fs := by
  unfold locking Sys.deferring
  refine within_then hb (by decide) fun x => within_if (within_pure rfl) (within_bind hbody ?_)
  rintro r _ rfl
  exact within_then hb (by decide) fun _ => within_pure rfl

theorem write_keeps (h : Nat) : Keeps B (do let o ← Sys.call .write h; pure (o ≠ .fail : Bool)) fs :=
  within_then hb (by decide) fun _ => within_pure rfl

end

section
variable {B : Nat} {fs : List Nat} (hb : fs.length + 1 ≤ B)
include hb

theorem closing_keeps {body : Nat → Sys Bool} (hbody : ∀ h, Keeps B (body h) (h :: fs)) : Keeps B (closing body) fs := by
  unfold closing
  refine within_bind (R := fun o fs' => (o = none ∧ fs' = fs) ∨ ∃ h, o = some h ∧ fs' = h :: fs)
    (within_open hb (fun h => Or.inr ⟨h, rfl, rfl⟩) (Or.inl ⟨rfl, rfl⟩)) ?_
  rintro _ _ (⟨rfl, rfl⟩ | ⟨h, rfl, rfl⟩)
  · exact within_pure rfl
  · unfold Sys.deferring
    refine within_bind (hbody h) ?_
    rintro r _ rfl
    exact within_bind (R := fun _ fs' => fs' = fs) (within_call hb (by decide) fun _ => by simp) fun _ _ e => by rw [e]; exact within_pure rfl

theorem unclosed_within {body : Nat → Sys Bool} (hbody : ∀ h, Keeps B (body h) (h :: fs)) : Within B (unclosed body) fs fun _ _ => True := by
  unfold unclosed
  refine within_bind (R := fun o fs' => (o = none ∧ fs' = fs) ∨ ∃ h, o = some h ∧ fs' = h :: fs)
    (within_open hb (fun h => Or.inr ⟨h, rfl, rfl⟩) (Or.inl ⟨rfl, rfl⟩)) ?_
  rintro _ _ (⟨rfl, rfl⟩ | ⟨h, rfl, rfl⟩)
  · exact within_pure trivial
  · intro w t ht
    obtain ⟨u, e, hu, _⟩ := hbody h w t ht
    exact ⟨u, e, hu, fun _ _ => trivial⟩

theorem nameLoop_keeps {k : Nat → Sys Bool} (hk : ∀ h, Within B (k h) (h :: fs) fun _ fs' => fs' = fs) (n : Nat) : Keeps B (nameLoop k n) fs := by
  induction n with
  | zero => exact within_never
  | succ n ih =>
    unfold nameLoop
    refine within_then (Nat.le_of_succ_le hb) (by decide) fun _ => within_if (within_pure rfl) ?_
    refine within_bind (R := fun o fs' => (o = none ∧ fs' = fs) ∨ ∃ h, o = some h ∧ fs' = h :: fs)
      (within_open hb (fun h => Or.inr ⟨h, rfl, rfl⟩) (Or.inl ⟨rfl, rfl⟩)) ?_
    rintro _ _ (⟨rfl, rfl⟩ | ⟨h, rfl, rfl⟩)
    · exact ih
    · exact hk h

theorem close_back (h : Nat) (r : Bool) : Within B (do let _ ← Sys.call .close h; pure r) (h :: fs) fun _ fs' => fs' = fs :=
  within_bind (R := fun _ fs' => fs' = fs) (within_call hb (by decide) fun _ => by simp) fun _ _ e => by rw [e]; exact within_pure rfl

end

theorem within_weaken {B : Nat} {m : Sys α} {fs : List Nat} {Q : α → List Nat → Prop} (h : Within B m fs Q) : Within B m fs fun _ _ => True :=
  fun w t ht => let ⟨u, e, hu, _⟩ := h w t ht; ⟨u, e, hu, fun _ _ => trivial⟩

/-- **C140.** One call needs one more file than are open, and removing a board needs two more; whatever fails, and whether the call returns or not. -/
theorem C140_one_call (m : Sys Bool) (hm : FileCall m) (w : Nat → Outcome) (t : List Ev) :
    ∃ u, (m w t).2 = t ++ u ∧ NeedsAtMost ((held t).files.length + 2) t u ∧
      ((∀ n, m ≠ removeBoardHeaderSys n) → NeedsAtMost ((held t).files.length + 1) t u) := by
  have one : Within ((held t).files.length + 1) m (held t).files (fun _ _ => True) → ∃ u, (m w t).2 = t ++ u ∧
      NeedsAtMost ((held t).files.length + 2) t u ∧ ((∀ n, m ≠ removeBoardHeaderSys n) → NeedsAtMost ((held t).files.length + 1) t u) :=
    fun h => let ⟨u, e, hu, _⟩ := h w t rfl; ⟨u, e, needs_mono hu (Nat.le_succ _), fun _ => hu⟩
  have hl : ∀ h : Nat, (h :: (held t).files).length ≤ (held t).files.length + 1 := fun _ => Nat.le_refl _
  cases hm with
  | boards n => exact one (unclosed_within (Nat.le_refl _) fun h => readTurns_keeps (hl h) _ _ _)
  | users n => exact one (unclosed_within (Nat.le_refl _) fun h => readTurns_keeps (hl h) _ _ _)
  | online n => exact one (unclosed_within (Nat.le_refl _) fun h => readTurns_keeps (hl h) _ _ _)
  | formosa n => exact one (unclosed_within (Nat.le_refl _) fun h => readTurns_keeps (hl h) _ _ _)
  | recent n => exact one (unclosed_within (Nat.le_refl _) fun h => scanLoop_keeps (hl h) _ _ _)
  | bad n => exact one (unclosed_within (Nat.le_refl _) fun h => scanLoop_keeps (hl h) _ _ _)
  | articles n => exact one (within_weaken (closing_keeps (Nat.le_refl _) fun h => readTurns_keeps (hl h) _ _ _))
  | article n => exact one (within_weaken (closing_keeps (Nat.le_refl _) fun h => slurp_keeps (hl h) _ _))
  | file n => exact one (within_weaken (closing_keeps (Nat.le_refl _) fun h => within_then (hl h) (by decide) fun _ => slurp_keeps (hl h) _ _))
  | dir => exact one (within_weaken (closing_keeps (Nat.le_refl _) fun h => within_then (hl h) (by decide) fun _ => within_pure rfl))
  | write => exact one (within_weaken (closing_keeps (Nat.le_refl _) fun h => locking_keeps (hl h) (write_keeps (hl h) _)))
  | append => exact one (within_weaken (closing_keeps (Nat.le_refl _) fun h => locking_keeps (hl h)
      (within_then (hl h) (by decide) fun _ => within_if (within_pure rfl) (write_keeps (hl h) _))))
  | update => exact one (within_weaken (closing_keeps (Nat.le_refl _) fun h => locking_keeps (hl h)
      (within_then (hl h) (by decide) fun _ => within_if (within_pure rfl)
        (within_then (hl h) (by decide) fun _ => within_if (within_pure rfl) (write_keeps (hl h) _)))))
  | create n => exact one (within_weaken (nameLoop_keeps (Nat.le_refl _) (fun h => close_back (Nat.le_refl _) h true) n))
  | post n =>
    refine one (within_weaken (nameLoop_keeps (Nat.le_refl _) (fun h => ?_) n))
    unfold Sys.deferring
    refine within_bind (locking_keeps (hl h) (write_keeps (hl h) _)) ?_
    rintro r _ rfl
    exact close_back (Nat.le_refl _) h r
  | draft => exact one (within_weaken (closing_keeps (Nat.le_refl _) fun h => write_keeps (hl h) _))
  | line => exact one (within_weaken (closing_keeps (Nat.le_refl _) fun h => write_keeps (hl h) _))
  | addBoard =>
    refine one (within_weaken (closing_keeps (Nat.le_refl _) fun h => ?_))
    refine within_then (hl h) (by decide) fun _ => within_if (within_pure rfl) (within_then (hl h) (by decide) fun _ => within_if (within_pure rfl) ?_)
    exact within_then (hl h) (by decide) fun _ => within_if (within_pure rfl) (within_then (hl h) (by decide) fun _ => within_pure rfl)
  | removeBoard n =>
    have h1 : ∀ h : Nat, (h :: (held t).files).length ≤ (held t).files.length + 2 := fun _ => Nat.le_succ _
    have h2 : ∀ h g : Nat, (g :: h :: (held t).files).length ≤ (held t).files.length + 2 := fun _ _ => Nat.le_refl _
    have : Keeps ((held t).files.length + 2) (removeBoardHeaderSys n) (held t).files := by
      refine closing_keeps (Nat.le_succ _) fun h => ?_
      refine within_then (h1 h) (by decide) fun _ => within_if (within_pure rfl) ?_
      refine closing_keeps (Nat.le_refl _) fun g => ?_
      refine within_then (h2 h g) (by decide) fun _ => within_if (within_pure rfl) ?_
      refine within_then (h2 h g) (by decide) fun _ => within_if (within_pure rfl) ?_
      refine within_bind (copyLoop_keeps (h2 h g) _ _ n) ?_
      rintro c _ rfl
      refine within_if (within_pure rfl) ?_
      refine within_then (h2 h g) (by decide) fun _ => within_if (within_pure rfl) ?_
      exact within_then (h2 h g) (by decide) fun _ => within_then (h2 h g) (by decide) fun _ => within_pure rfl
    obtain ⟨u, e, hu, _⟩ := this w t rfl
    exact ⟨u, e, hu, fun h => absurd rfl (h n)⟩

/-! ## The collector -/

theorem closes_needs (hs : List Nat) (t : List Ev) : NeedsAtMost (held t).files.length t (hs.map fun h => ⟨.close, h, .ok⟩) := by
  induction hs generalizing t with
  | nil => exact needs_nil _ _
  | cons h hs ih =>
    refine needs_append (u := [⟨.close, h, .ok⟩]) (needs_one (Nat.le_refl _)) (needs_mono (ih _) ?_)
    rw [held_snoc, step_files]
    exact List.length_erase_le

theorem closes_files (hs : List Nat) (t : List Ev) : (held (t ++ hs.map fun h => ⟨.close, h, .ok⟩)).files = hs.foldl List.erase (held t).files := by
  induction hs generalizing t with
  | nil => rw [List.map_nil, List.append_nil]; rfl
  | cons h hs ih =>
    rw [List.map_cons, List.append_cons, ih, held_snoc, step_files]
    rfl

theorem erase_since {start : Nat} {base : List Nat} (hbase : ∀ h ∈ base, h < start) (leaks : List Nat) (hl : ∀ h ∈ leaks, start ≤ h) :
    ((leaks ++ base).filter fun h => decide (start ≤ h)).foldl List.erase (leaks ++ base) = base := by
  induction leaks with
  | nil =>
    rw [List.nil_append, List.filter_eq_nil_iff.mpr fun h hh => by simpa using hbase h hh]
    rfl
  | cons a l ih =>
    rw [List.cons_append, List.filter_cons_of_pos (by simpa using hl a (List.mem_cons_self ..)), List.foldl_cons, List.erase_cons_head]
    exact ih fun h hh => hl h (List.mem_cons_of_mem _ hh)

/-- Files of calls that have returned, on top of those of the program. -/
structure Spec.LeftOpen (start n : Nat) (base fs : List Nat) : Prop where
  split : ∃ leaks, fs = leaks ++ base ∧ leaks.length ≤ n ∧ ∀ h ∈ leaks, start ≤ h

theorem collect_within {B start n : Nat} {base fs : List Nat} (hbase : ∀ h ∈ base, h < start) (hf : LeftOpen start n base fs) (hb : base.length + n ≤ B) :
    Within B (Sys.collect start) fs fun _ fs' => fs' = base := by
  intro w t ht
  obtain ⟨leaks, rfl, hn, hl⟩ := hf
  refine ⟨_, rfl, needs_mono (closes_needs _ t) ?_, fun _ _ => ?_⟩
  · rw [ht, List.length_append]; omega
  · rw [closes_files, openFiles_held, ht]
    exact erase_since hbase leaks hl

theorem sparse_le {k n : Nat} {ts : List Turn} (h : Sparse k n ts) : n ≤ k := by
  induction h with
  | nil h => exact h
  | collect h _ _ => exact h
  | leaving _ _ ih => omega
  | closing _ _ _ ih => exact ih

/-- What is claimed of a process: how many files it needs, and what is open in the end. -/
def Spec.EnoughFiles (start k : Nat) (base : List Nat) (ts : List Turn) (w : Nat → Outcome) (t : List Ev) : Prop :=
  ∃ u, (Turn.play start ts w t).2 = t ++ u ∧ NeedsAtMost (base.length + k + 2) t u ∧
    ((Turn.play start ts w t).1 = some () → LeftOpen start k base (held (t ++ u)).files)

theorem bounded_call {start k n n' : Nat} {base : List Nat} {m : Sys Bool} {ts : List Turn} {w : Nat → Outcome} {t : List Ev} (hm : FileCall m)
    (hnk : n ≤ k) (hs : start ≤ t.length) (ht : LeftOpen start n base (held t).files)
    (ih : ∀ t', start ≤ t'.length → LeftOpen start n' base (held t').files → EnoughFiles start k base ts w t')
    (hleft : ∀ r t', m w t = (some r, t') → LeftOpen start n' base (held t').files) : EnoughFiles start k base (.call m :: ts) w t := by
  obtain ⟨u, e, hu, _⟩ := C140_one_call m hm w t
  have hlen : (held t).files.length + 2 ≤ base.length + k + 2 := by
    obtain ⟨leaks, h1, h2, _⟩ := ht
    rw [h1, List.length_append]; omega
  show ∃ u, (Sys.bind m (fun _ => Turn.play start ts) w t).2 = _ ∧ _ ∧ ((Sys.bind m (fun _ => Turn.play start ts) w t).1 = _ → _)
  unfold Sys.bind
  match hr : m w t with
  | (some r, t') =>
    rw [hr] at e
    have e : t' = t ++ u := e
    subst e
    obtain ⟨v, e2, hv, hq⟩ := ih (t ++ u) (by rw [List.length_append]; omega) (hleft r _ hr)
    refine ⟨u ++ v, by simpa only [List.append_assoc] using e2, needs_append (needs_mono hu hlen) hv, fun hh => ?_⟩
    rw [← List.append_assoc]
    exact hq hh
  | (none, t') =>
    rw [hr] at e
    exact ⟨u, e, needs_mono hu hlen, fun hh => by cases hh⟩

theorem play_needs {k n : Nat} {ts : List Turn} (h : Sparse k n ts) {start : Nat} {base : List Nat} (hbase : ∀ h ∈ base, h < start)
    (w : Nat → Outcome) (t : List Ev) (hs : start ≤ t.length) (ht : LeftOpen start n base (held t).files) : EnoughFiles start k base ts w t := by
  induction h generalizing t with
  | nil h =>
    refine ⟨[], (List.append_nil t).symm, needs_nil _ _, fun _ => ?_⟩
    obtain ⟨leaks, h1, h2, h3⟩ := ht
    exact ⟨leaks, by rw [List.append_nil, h1], by omega, h3⟩
  | @collect n ts hn hts ih =>
    obtain ⟨u, e, hu, hq⟩ := collect_within (B := base.length + k + 2) hbase ht (by omega) w t rfl
    have hf := hq () rfl
    obtain ⟨v, e2, hv, hq2⟩ := ih (t ++ u) (by rw [List.length_append]; omega) ⟨[], hf, Nat.le_refl _, nofun⟩
    have hp : Turn.play start (.collect :: ts) w t = Turn.play start ts w (t ++ u) := by
      show Sys.bind (Sys.collect start) (fun _ => Turn.play start ts) w t = _
      unfold Sys.bind
      rw [show Sys.collect start w t = (some (), t ++ u) from Prod.ext rfl e]
    refine ⟨u ++ v, ?_, needs_append hu hv, fun hh => ?_⟩
    · rw [hp, e2, List.append_assoc]
    · rw [← List.append_assoc]
      exact hq2 (by rw [← hp]; exact hh)
  | @leaving n m ts hm hts ih =>
    have hfc : FileCall m := by
      cases hm with
      | boards n => exact .boards n
      | users n => exact .users n
      | online n => exact .online n
      | formosa n => exact .formosa n
      | recent n => exact .recent n
      | bad n => exact .bad n
    refine bounded_call hfc (Nat.le_of_succ_le (sparse_le hts)) hs ht (fun t' h1 h2 => ih t' h1 h2) fun r t' hr => ?_
    obtain ⟨leaks, h1, h2, h3⟩ := ht
    rw [C108_unclosed_exact m hm w t r t' hr]
    split
    · refine ⟨t.length :: leaks, by rw [h1]; rfl, Nat.succ_le_succ h2, ?_⟩
      intro h hh
      rcases List.mem_cons.mp hh with rfl | hh
      · exact hs
      · exact h3 h hh
    · exact ⟨leaks, h1, Nat.le_succ_of_le h2, h3⟩
  | @closing n m ts hm hu hts ih =>
    refine bounded_call hm (sparse_le hts) hs ht (fun t' h1 h2 => ih t' h1 h2) fun r t' hr => ?_
    rw [C108_closed_partial m hm hu w t r t' hr]
    exact ht

/-! ## The claims -/

/-- The full claim of C140: some number of files is enough for every process. -/
def Spec.C140 : Prop := ∃ n, ∀ (ms : List (Sys Bool)), (∀ m ∈ ms, FileCall m) → ∀ w, NeedsAtMost n [] (Turn.play 0 (ms.map .call) w []).2

/-- **C140, the part that holds**: if between two collections at most `k` calls are made of those that leave their file open, `k + 2` files more than
the program has open for itself are enough, however many calls are made, whatever fails, and whether all calls return or not. (Missing for the full
claim: the six list readers close nothing, and only the collector does.) -/
theorem C140_partial (k : Nat) (ts : List Turn) (h : Sparse k 0 ts) (w : Nat → Outcome) (t : List Ev) (hown : ∀ f ∈ (held t).files, f < t.length) :
    ∃ u, (Turn.play t.length ts w t).2 = t ++ u ∧ NeedsAtMost ((held t).files.length + k + 2) t u := by
  obtain ⟨u, e, hu, _⟩ := play_needs h hown w t (Nat.le_refl _) ⟨[], rfl, Nat.le_refl _, nofun⟩
  exact ⟨u, e, hu⟩

/-- **C140.** A process that makes only calls that close what they open gets along with two. -/
theorem C140_closed (ms : List (Sys Bool)) (h : ∀ m ∈ ms, FileCall m ∧ ¬ Unclosed m) (w : Nat → Outcome) :
    NeedsAtMost 2 [] (Turn.play 0 (ms.map .call) w []).2 := by
  have hs : Sparse 0 0 (ms.map .call) := by
    induction ms with
    | nil => exact .nil (Nat.le_refl _)
    | cons m ms ih => exact .closing (h m (List.mem_cons_self ..)).1 (h m (List.mem_cons_self ..)).2 (ih fun m hm => h m (List.mem_cons_of_mem _ hm))
  obtain ⟨u, e, hu⟩ := C140_partial 0 _ hs w [] nofun
  have e : (Turn.play 0 (ms.map .call) w []).2 = u := e
  rw [e]
  exact hu

theorem play_append (start : Nat) (ts us : List Turn) (w : Nat → Outcome) (t : List Ev) :
    Turn.play start (ts ++ us) w t = Sys.bind (Turn.play start ts) (fun _ => Turn.play start us) w t := by
  induction ts generalizing t with
  | nil => rfl
  | cons a ts ih =>
    cases a with
    | call m =>
      show Sys.bind m (fun _ => Turn.play start (ts ++ us)) w t = Sys.bind (Sys.bind m fun _ => Turn.play start ts) _ w t
      unfold Sys.bind
      match m w t with
      | (some r, t') => exact ih t'
      | (none, t') => rfl
    | collect =>
      show Sys.bind (Sys.collect start) (fun _ => Turn.play start (ts ++ us)) w t = Sys.bind (Sys.bind (Sys.collect start) fun _ => Turn.play start ts) _ w t
      unfold Sys.bind
      match Sys.collect start w t with
      | (some r, t') => exact ih t'
      | (none, t') => rfl

/-- **C140.** After a collection only the files of the program are open. -/
theorem C140_collected (k : Nat) (ts : List Turn) (h : Sparse k 0 ts) (w : Nat → Outcome) (t : List Ev) (hown : ∀ f ∈ (held t).files, f < t.length)
    (hret : (Turn.play t.length (ts ++ [.collect]) w t).1 = some ()) :
    (held (Turn.play t.length (ts ++ [.collect]) w t).2).files = (held t).files := by
  obtain ⟨u, e, _, hq⟩ := play_needs h hown w t (Nat.le_refl _) ⟨[], rfl, Nat.le_refl _, nofun⟩
  rw [play_append] at hret ⊢
  unfold Sys.bind at hret ⊢
  match hr : Turn.play t.length ts w t with
  | (some (), t') =>
    rw [hr] at e hq
    have e : t' = t ++ u := e
    subst e
    obtain ⟨v, e2, _, hf⟩ := collect_within (B := (held t).files.length + k) hown (hq rfl) (Nat.le_refl _) w (t ++ u) rfl
    show (held (Sys.collect t.length w (t ++ u)).2).files = _
    rw [e2]
    exact hf () rfl
  | (none, t') =>
    rw [hr] at hret
    cases hret

theorem held_grows (t : List Ev) (e : Ev) : (held (t ++ [e])).files.length ≤ (held t).files.length + (if e.op = .open then 1 else 0) := by
  rw [held_snoc, step_files]
  obtain ⟨o, h, x⟩ := e
  cases o <;> simp only [reduceCtorEq, if_true, if_false, Nat.add_zero, Nat.le_refl]
  · split
    · exact Nat.le_refl _
    · exact Nat.le_succ _
  · exact List.length_erase_le

/-- As many files as are open at the end were needed. -/
theorem needed_at_end {n : Nat} {t : List Ev} (h : NeedsAtMost n [] t) : (held t).files.length ≤ n := by
  induction t using snoc_ind with
  | h0 => exact Nat.zero_le _
  | h1 t e _ => exact Nat.le_trans (held_grows t e) (h t e [] rfl)

theorem play_times (m : Sys Bool) (n : Nat) : Turn.play 0 ((List.replicate n m).map .call) = times m n := by
  induction n with
  | zero => rfl
  | succ n ih =>
    show (do let _ ← m; Turn.play 0 ((List.replicate n m).map .call)) = do let _ ← m; times m n
    rw [ih]

/-- **C140 is false of the code**: reading the list of users over and over needs more and more files. -/
theorem C140_refuted : ¬ Spec.C140 := by
  rintro ⟨n, h⟩
  obtain ⟨t, h1, h2⟩ := C108_piles_up (n + 1)
  have h3 := h (List.replicate (n + 1) (openUserecFileSys 1)) (fun m hm => by rw [List.eq_of_mem_replicate hm]; exact .users 1) emptyFile
  rw [play_times, h1] at h3
  have h3 : NeedsAtMost n [] t := h3
  have := needed_at_end h3
  omega

/-! ## When no more files can be opened -/

/-- The system opens no file while `L` are open. -/
def Spec.Obeys (L : Nat) (t u : List Ev) : Prop := ∀ p e q, u = p ++ e :: q → e.op = .open → L ≤ (held (t ++ p)).files.length → e.out ≠ .ok

/-- A refused open, or a conversion. -/
def Spec.Vain (e : Ev) : Prop := e.op = .open ∧ e.out ≠ .ok ∨ e.op = .convert

/-- The calls that look for a name that is free. -/
inductive Spec.NameSeeker : Sys Bool → Prop where
  | create (n) : NameSeeker (createFilenameSys n)
  | post (n) : NameSeeker (newArticleRecordSys n)

def Extends (m : Sys α) : Prop := ∀ w t, ∃ u, (m w t).2 = t ++ u

theorem grows_of {m : Sys α} {Q : List Nat → α → List Nat → Prop} (h : ∀ fs, Within (fs.length + 2) m fs (Q fs)) : Extends m :=
  fun w t => let ⟨u, e, _⟩ := h _ w t rfl; ⟨u, e⟩

theorem sys_bind_ok {m : Sys α} {f : α → Sys β} {w : Nat → Outcome} {t t' : List Ev} {a : α} (h : m w t = (some a, t')) :
    (m >>= f) w t = f a w t' := by
  show Sys.bind m f w t = _
  unfold Sys.bind
  rw [h]

theorem open_first {body : Nat → Sys Bool} (hb : ∀ h, Extends (body h)) (L : Nat) (w : Nat → Outcome) (t u : List Ev) (hL : L ≤ (held t).files.length)
    (he : ((Sys.openAny >>= fun
      | none => pure false
      | some h => body h : Sys Bool) w t).2 = t ++ u) (ho : Obeys L t u) :
    (Sys.openAny >>= fun
      | none => pure false
      | some h => body h : Sys Bool) w t = (some false, t ++ u) ∧ ∀ e ∈ u, Vain e := by
  by_cases hw : w t.length = .ok
  · exfalso
    rw [sys_bind_ok (a := some t.length) (t' := t ++ [⟨.open, t.length, w t.length⟩]) (by unfold Sys.openAny; rw [if_pos hw])] at he
    obtain ⟨v, hv⟩ := hb t.length w (t ++ [⟨.open, t.length, w t.length⟩])
    have : t ++ u = t ++ ([⟨.open, t.length, w t.length⟩] ++ v) := by rw [← he, ← List.append_assoc]; exact hv
    have hu := List.append_cancel_left this
    exact ho [] _ v hu rfl (by rw [List.append_nil]; exact hL) hw
  · have e1 := sys_bind_ok (m := Sys.openAny) (f := fun
      | none => pure false
      | some h => body h) (w := w) (t := t) (a := none) (t' := t ++ [⟨.open, t.length, w t.length⟩]) (by unfold Sys.openAny; rw [if_neg hw])
    rw [e1] at he
    have hu : u = [⟨.open, t.length, w t.length⟩] := (List.append_cancel_left (as := t) he).symm
    rw [e1, hu]
    refine ⟨rfl, fun e h => ?_⟩
    rw [List.mem_singleton] at h
    rw [h]
    exact Or.inl ⟨rfl, hw⟩

theorem obeys_later {L : Nat} {t u v : List Ev} (h : Obeys L t (u ++ v)) : Obeys L (t ++ u) v := by
  intro p e q he hop hl
  rw [List.append_assoc] at hl
  exact h (u ++ p) e q (by rw [he, List.append_assoc]) hop hl

theorem names_vain {k : Nat → Sys Bool} (hk : ∀ h, Extends (k h)) (hn : ∀ n, Extends (nameLoop k n)) (L : Nat) (w : Nat → Outcome) (n : Nat) :
    ∀ (t u : List Ev), L ≤ (held t).files.length → (nameLoop k n w t).2 = t ++ u → Obeys L t u →
      (∀ e ∈ u, Vain e) ∧ (nameLoop k n w t).1 ≠ some true ∧
      ((∀ e ∈ u, e.op = .convert → e.out ≠ .fail) → (nameLoop k n w t).1 = none) := by
  induction n with
  | zero =>
    intro t u _ he _
    have : u = [] := (List.append_cancel_left (as := t) (by rw [List.append_nil]; exact he)).symm
    subst this
    exact ⟨nofun, nofun, fun _ => rfl⟩
  | succ n ih =>
    intro t u hL he ho
    obtain ⟨c, hc⟩ : ∃ c, c = Ev.mk .convert 0 (w t.length) := ⟨_, rfl⟩
    obtain ⟨o, hO⟩ : ∃ o, o = Ev.mk .open (t ++ [c]).length (w (t ++ [c]).length) := ⟨_, rfl⟩
    have e1 : nameLoop k (n + 1) w t = (if w t.length = .fail then pure false else Sys.openAny >>= fun
      | none => nameLoop k n
      | some h => k h : Sys Bool) w (t ++ [c]) := by
      show (Sys.call .convert 0 >>= _) w t = _
      rw [sys_bind_ok (a := w t.length) (t' := t ++ [c]) (by rw [hc]; rfl)]
      rfl
    rw [e1] at he ⊢
    by_cases hf : w t.length = .fail
    · rw [if_pos hf] at he ⊢
      have hu : u = [c] := (List.append_cancel_left (as := t) he).symm
      subst hu
      refine ⟨fun e h => ?_, nofun, fun h => absurd hf ?_⟩
      · rw [List.mem_singleton.mp h, hc]
        exact Or.inr rfl
      · have := h c (List.mem_singleton.mpr rfl) (by rw [hc])
        rwa [hc] at this
    · rw [if_neg hf] at he ⊢
      have hheld : (held (t ++ [c])).files = (held t).files := by rw [held_snoc, step_files, hc]
      by_cases hok : w (t ++ [c]).length = .ok
      · exfalso
        rw [sys_bind_ok (a := some (t ++ [c]).length) (t' := t ++ [c] ++ [o]) (by unfold Sys.openAny; rw [if_pos hok, hO])] at he
        obtain ⟨v, hv⟩ := hk (t ++ [c]).length w (t ++ [c] ++ [o])
        have : t ++ u = t ++ ([c] ++ o :: v) := by
          rw [← he]
          refine hv.trans ?_
          simp only [List.append_assoc, List.cons_append, List.nil_append]
        exact ho _ _ v (List.append_cancel_left this) (by rw [hO]) (by rw [hheld]; exact hL) (by rw [hO]; exact hok)
      · have e2 : (Sys.openAny >>= fun
            | none => nameLoop k n
            | some h => k h : Sys Bool) w (t ++ [c]) = nameLoop k n w (t ++ [c] ++ [o]) :=
          sys_bind_ok (a := none) (by unfold Sys.openAny; rw [if_neg hok, hO])
        rw [e2] at he ⊢
        obtain ⟨v, hv⟩ := hn n w (t ++ [c] ++ [o])
        have : t ++ u = t ++ ([c, o] ++ v) := by
          rw [← he, hv]
          simp only [List.append_assoc, List.cons_append, List.nil_append]
        have hu := List.append_cancel_left this
        subst hu
        have hheld2 : (held (t ++ [c] ++ [o])).files = (held t).files := by
          rw [held_snoc, step_files, hheld, hO]
          simp only [if_neg hok]
        have hcat : t ++ [c] ++ [o] = t ++ [c, o] := by rw [List.append_assoc]; rfl
        obtain ⟨h1, h2, h3⟩ := ih (t ++ [c] ++ [o]) v (by rw [hheld2]; exact hL) hv (by rw [hcat]; exact obeys_later ho)
        refine ⟨fun e h => ?_, h2, fun h => h3 fun e hm => h e (List.mem_append_right _ hm)⟩
        rcases List.mem_append.mp h with h | h
        · rcases List.mem_cons.mp h with rfl | h
          · rw [hc]; exact Or.inr rfl
          · rw [List.mem_singleton.mp h, hO]; exact Or.inl ⟨rfl, hok⟩
        · exact h1 e h

theorem grows_pure (a : α) : Extends (pure a : Sys α) := fun _ t => ⟨[], (List.append_nil t).symm⟩

theorem grows_call (o : Op) (h : Nat) : Extends (Sys.call o h) := fun w t => ⟨[⟨o, h, w t.length⟩], rfl⟩

theorem grows_bind {m : Sys α} {f : α → Sys β} (h1 : Extends m) (h2 : ∀ a, Extends (f a)) : Extends (m >>= f) := by
  intro w t
  obtain ⟨u, e⟩ := h1 w t
  show ∃ u, (Sys.bind m f w t).2 = _
  unfold Sys.bind
  match hm : m w t with
  | (some a, t') =>
    rw [hm] at e
    have e : t' = t ++ u := e
    subst e
    obtain ⟨v, e2⟩ := h2 a w (t ++ u)
    exact ⟨u ++ v, by rw [← List.append_assoc]; exact e2⟩
  | (none, t') =>
    rw [hm] at e
    exact ⟨u, e⟩

theorem grows_if {c : Prop} [Decidable c] {m n : Sys α} (h1 : Extends m) (h2 : Extends n) : Extends (if c then m else n) := by
  split
  · exact h1
  · exact h2

theorem grows_open : Extends Sys.openAny := fun w t => ⟨[⟨.open, t.length, w t.length⟩], rfl⟩

theorem grows_deferring {o : Op} {h : Nat} {m : Sys α} (hm : Extends m) : Extends (Sys.deferring o h m) :=
  grows_bind hm fun r => grows_bind (grows_call o h) fun _ => grows_pure r

theorem grows_closing {body : Nat → Sys Bool} (hb : ∀ h, Extends (body h)) : Extends (closing body) :=
  grows_bind grows_open fun
    | none => grows_pure _
    | some h => grows_deferring (hb h)

theorem grows_locking {h : Nat} {m : Sys Bool} (hm : Extends m) : Extends (locking h m) :=
  grows_bind (grows_call _ _) fun _ => grows_if (grows_pure _) (grows_deferring hm)

theorem grows_write (h : Nat) : Extends (do let o ← Sys.call .write h; pure (o ≠ .fail : Bool)) :=
  grows_bind (grows_call _ _) fun _ => grows_pure _

theorem grows_readTurns (c : Bool) (h n : Nat) : Extends (readTurns c h n) := grows_of fun _ => readTurns_keeps (Nat.le_add_right _ _) c h n
theorem grows_slurp (h n : Nat) : Extends (slurp h n) := grows_of fun _ => slurp_keeps (Nat.le_add_right _ _) h n
theorem grows_copyLoop (fo fi n : Nat) : Extends (copyLoop fo fi n) := grows_of fun _ => copyLoop_keeps (Nat.le_add_right _ _) fo fi n
theorem grows_scanLoop (f : Bool) (h n : Nat) : Extends (scanLoop f h n) := grows_of fun _ => scanLoop_keeps (Nat.le_add_right _ _) f h n

theorem grows_nameLoop {k : Nat → Sys Bool} (hk : ∀ h, Extends (k h)) (n : Nat) : Extends (nameLoop k n) := by
  induction n with
  | zero => exact fun w t => ⟨[], (List.append_nil t).symm⟩
  | succ n ih =>
    exact grows_bind (grows_call _ _) fun _ => grows_if (grows_pure _) (grows_bind grows_open fun
      | none => ih
      | some h => hk h)

theorem opener_seeks_not {body : Nat → Sys Bool} {m : Sys Bool} (h : m = (Sys.openAny >>= fun
      | none => pure false
      | some h => body h)) : ¬ NameSeeker m := by
  have h1 : (m (fun _ => .fail) []).2 = [⟨.open, 0, .fail⟩] := by rw [h]; rfl
  intro hs
  cases hs with
  | create n =>
    cases n with
    | zero => exact absurd h1 (by decide)
    | succ n =>
      have h1 : [Ev.mk .convert 0 .fail] = [⟨.open, 0, .fail⟩] := h1
      exact absurd h1 (by decide)
  | post n =>
    cases n with
    | zero => exact absurd h1 (by decide)
    | succ n =>
      have h1 : [Ev.mk .convert 0 .fail] = [⟨.open, 0, .fail⟩] := h1
      exact absurd h1 (by decide)

/-- **C140.** While as many files are open as the system allows, every call is in vain: nothing is read or written, and it fails or does not return. -/
theorem C140_exhausted (L : Nat) (m : Sys Bool) (hm : FileCall m) (w : Nat → Outcome) (t u : List Ev) (hL : L ≤ (held t).files.length)
    (he : (m w t).2 = t ++ u) (ho : Obeys L t u) :
    (∀ e ∈ u, Vain e) ∧ (m w t).1 ≠ some true ∧ (¬ NameSeeker m → (m w t).1 = some false) ∧
    (NameSeeker m → (∀ e ∈ u, e.op = .convert → e.out ≠ .fail) → (m w t).1 = none) := by
  have seek : ∀ {k : Nat → Sys Bool} {n : Nat}, (∀ h, Extends (k h)) → (∀ n, Extends (nameLoop k n)) → NameSeeker (nameLoop k n) →
      (nameLoop k n w t).2 = t ++ u → (∀ e ∈ u, Vain e) ∧ (nameLoop k n w t).1 ≠ some true ∧ (¬ NameSeeker (nameLoop k n) → (nameLoop k n w t).1 = some false) ∧
      (NameSeeker (nameLoop k n) → (∀ e ∈ u, e.op = .convert → e.out ≠ .fail) → (nameLoop k n w t).1 = none) := by
    intro k n h1 h2 h3 h4
    obtain ⟨a, b, c⟩ := names_vain h1 h2 L w n t u hL h4 ho
    exact ⟨a, b, fun h => absurd h3 h, fun _ => c⟩
  have first : ∀ {body : Nat → Sys Bool}, (∀ h, Extends (body h)) → m = (Sys.openAny >>= fun
      | none => pure false
      | some h => body h) → (∀ e ∈ u, Vain e) ∧ (m w t).1 ≠ some true ∧ (¬ NameSeeker m → (m w t).1 = some false) ∧
      (NameSeeker m → (∀ e ∈ u, e.op = .convert → e.out ≠ .fail) → (m w t).1 = none) := by
    intro body h1 h2
    have h3 := opener_seeks_not h2
    rw [h2] at he
    obtain ⟨a, b⟩ := open_first h1 L w t u hL he ho
    rw [← h2] at a
    rw [a]
    exact ⟨b, nofun, fun _ => rfl, fun h => absurd h h3⟩
  cases hm with
  | boards n => exact first (fun h => grows_readTurns _ _ _) rfl
  | users n => exact first (fun h => grows_readTurns _ _ _) rfl
  | online n => exact first (fun h => grows_readTurns _ _ _) rfl
  | formosa n => exact first (fun h => grows_readTurns _ _ _) rfl
  | recent n => exact first (fun h => grows_scanLoop _ _ _) rfl
  | bad n => exact first (fun h => grows_scanLoop _ _ _) rfl
  | articles n => exact first (fun h => grows_deferring (grows_readTurns _ _ _)) rfl
  | article n => exact first (fun h => grows_deferring (grows_slurp _ _)) rfl
  | file n => exact first (fun h => grows_deferring (grows_bind (grows_call _ _) fun _ => grows_slurp _ _)) rfl
  | dir => exact first (fun h => grows_deferring (grows_bind (grows_call _ _) fun _ => grows_pure _)) rfl
  | write => exact first (fun h => grows_deferring (grows_locking (grows_write _))) rfl
  | append => exact first (fun h => grows_deferring (grows_locking (grows_bind (grows_call _ _) fun _ => grows_if (grows_pure _) (grows_write _)))) rfl
  | update => exact first (fun h => grows_deferring (grows_locking (grows_bind (grows_call _ _) fun _ => grows_if (grows_pure _)
      (grows_bind (grows_call _ _) fun _ => grows_if (grows_pure _) (grows_write _))))) rfl
  | create n =>
    have hk : ∀ h, Extends (do let _ ← Sys.call .close h; pure true : Sys Bool) := fun h => grows_bind (grows_call _ _) fun _ => grows_pure _
    exact seek hk (grows_nameLoop hk) (.create n) he
  | post n =>
    have hk : ∀ h, Extends (Sys.deferring .close h (locking h do let o ← Sys.call .write h; pure (o ≠ .fail : Bool))) :=
      fun h => grows_deferring (grows_locking (grows_write _))
    exact seek hk (grows_nameLoop hk) (.post n) he
  | draft => exact first (fun h => grows_deferring (grows_write _)) rfl
  | line => exact first (fun h => grows_deferring (grows_write _)) rfl
  | addBoard =>
    exact first (fun h => grows_deferring (grows_bind (grows_call _ _) fun _ => grows_if (grows_pure _) (grows_bind (grows_call _ _) fun _ =>
      grows_if (grows_pure _) (grows_bind (grows_call _ _) fun _ => grows_if (grows_pure _) (grows_bind (grows_call _ _) fun _ => grows_pure _))))) rfl
  | removeBoard n =>
    exact first (fun h => grows_deferring (grows_bind (grows_call _ _) fun _ => grows_if (grows_pure _) (grows_closing fun g =>
      grows_bind (grows_call _ _) fun _ => grows_if (grows_pure _) (grows_bind (grows_call _ _) fun _ => grows_if (grows_pure _)
        (grows_bind (grows_copyLoop _ _ _) fun _ => grows_if (grows_pure _) (grows_bind (grows_call _ _) fun _ => grows_if (grows_pure _)
          (grows_bind (grows_call _ _) fun _ => grows_bind (grows_call _ _) fun _ => grows_pure _))))))) rfl

/-! ## Examples -/

/-- Three times the list of users, a collection, a record updated. -/
example : Sparse 3 0 [.call (openUserecFileSys 1), .call (openUserecFileSys 1), .call (openUserecFileSys 1), .collect, .call updateFileHeaderSys] :=
  .leaving (.users 1) (.leaving (.users 1) (.leaving (.users 1) (.collect (Nat.le_refl _) (.closing .update not_unclosed_update (.nil (Nat.zero_le _))))))

/-- Two are needed. -/
example : ¬ NeedsAtMost 1 [] (removeBoardHeaderSys 1 (fun i => if i = 5 then .eof else .ok) []).2 := by
  intro h
  have h := h [⟨.open, 0, .ok⟩, ⟨.lock, 0, .ok⟩] ⟨.open, 2, .ok⟩ [⟨.seek, 0, .ok⟩, ⟨.seek, 2, .ok⟩, ⟨.read, 0, .eof⟩, ⟨.seek, 2, .ok⟩, ⟨.truncate, 2, .ok⟩,
    ⟨.unlock, 0, .ok⟩, ⟨.close, 2, .ok⟩, ⟨.close, 0, .ok⟩] (by decide)
  exact absurd h (by decide)

/-- Two lists have been read and two files are allowed: the third reading fails. -/
example : let t : List Ev := [⟨.open, 0, .ok⟩, ⟨.read, 0, .eof⟩, ⟨.open, 2, .ok⟩, ⟨.read, 2, .eof⟩]
    2 ≤ (held t).files.length ∧ (openUserecFileSys 1 (fun i => if i = 4 then .fail else .ok) t) = (some false, t ++ [⟨.open, 4, .fail⟩]) ∧
    Obeys 2 t [⟨.open, 4, .fail⟩] := by
  refine ⟨by decide, by decide, ?_⟩
  intro p e q h _ _
  cases p with
  | nil => injection h with h _; rw [← h]; decide
  | cons a p => injection h with _ h; exact absurd h (by simp)

end Verif
