import Verif.Props.Handles
/-!
# C111–C112: what a call reports when the system fails it
-/

namespace Verif
open Spec

/-- The events after `t` in which one of the operations `S` failed: none. -/
def Spec.noFail (S : Op → Bool) (u : List Ev) : Bool := u.all fun e => !(S e.op && e.out = .fail)

/-- A call that returns has added events to the list, and `Q` holds of the result and of whether no operation in `S` failed. -/
def Gives (S : Op → Bool) (m : Sys α) (Q : α → Bool → Prop) : Prop :=
  ∀ w t a t', m w t = (some a, t') → ∃ u, t' = t ++ u ∧ Q a (noFail S u)

variable {S : Op → Bool}

theorem gives_pure {a : α} {Q : α → Bool → Prop} (h : Q a true) : Gives S (pure a) Q := by
  intro w t a' t' e
  change (some a, t) = _ at e
  injection e with e1 e2
  injection e1 with e1
  exact ⟨[], by rw [← e2, List.append_nil], by rw [← e1]; exact h⟩

theorem gives_never {Q : α → Bool → Prop} : Gives S (Sys.never : Sys α) Q := by
  intro w t a t' e
  unfold Sys.never at e
  injection e with e _
  cases e

theorem gives_call {o : Op} {h : Nat} {Q : Outcome → Bool → Prop} (hq : ∀ x, Q x (!(S o && x = .fail))) : Gives S (Sys.call o h) Q := by
  intro w t a t' e
  unfold Sys.call at e
  injection e with e1 e2
  injection e1 with e1
  refine ⟨_, e2.symm, ?_⟩
  rw [← e1]
  have := hq (w t.length)
  simpa [noFail] using this

theorem gives_bind {m : Sys α} {f : α → Sys β} {R : α → Bool → Prop} {Q : β → Bool → Prop} (h1 : Gives S m R)
    (h2 : ∀ a c, R a c → Gives S (f a) fun b d => Q b (c && d)) : Gives S (m >>= f) Q := by
  intro w t b t' e
  change Sys.bind m f w t = _ at e
  unfold Sys.bind at e
  match hm : m w t with
  | (some a, v) =>
    rw [hm] at e
    obtain ⟨u, h3, h4⟩ := h1 w t a v hm
    obtain ⟨u', h5, h6⟩ := h2 a _ h4 w v b t' e
    refine ⟨u ++ u', by rw [h5, h3, List.append_assoc], ?_⟩
    rw [show noFail S (u ++ u') = (noFail S u && noFail S u') from List.all_append]
    exact h6
  | (none, u) =>
    rw [hm] at e
    injection e with e _
    cases e

theorem gives_weaken {m : Sys α} {Q R : α → Bool → Prop} (h : Gives S m R) (hi : ∀ a c, R a c → Q a c) : Gives S m Q := by
  intro w t a t' e
  obtain ⟨u, h1, h2⟩ := h w t a t' e
  exact ⟨u, h1, hi _ _ h2⟩

/-- Success is reported only if nothing in `S` failed. -/
def Honest (S : Op → Bool) (m : Sys Bool) : Prop := Gives S m fun r c => r = true → c = true

theorem honest_pure {r : Bool} : Honest S (pure r) := gives_pure fun _ => rfl

theorem honest_if {c : Prop} [Decidable c] {m n : Sys Bool} (h1 : c → Honest S m) (h2 : ¬ c → Honest S n) :
    Honest S (if c then m else n) := by
  split
  · exact h1 (by assumption)
  · exact h2 (by assumption)

/-- A call of the system, whose failure is answered by `false`. -/
theorem honest_step {o : Op} {h : Nat} {f : Outcome → Sys Bool} (hf : ∀ x, Honest S (f x))
    (hb : S o = true → Gives S (f .fail) fun r _ => r = false) : Honest S (Sys.call o h >>= f) := by
  refine gives_bind (R := fun x c => c = !(S o && x = .fail)) (gives_call fun x => rfl) ?_
  rintro x _ rfl
  by_cases hx : S o = true ∧ x = .fail
  · rw [hx.2]
    refine gives_weaken (hb hx.1) fun r c hr h => ?_
    rw [hr] at h; cases h
  · have : (!(S o && x = .fail)) = true := by
      simp only [Bool.not_eq_true', Bool.and_eq_false_iff, decide_eq_false_iff_not]
      by_cases hs : S o = true
      · exact Or.inr fun e => hx ⟨hs, e⟩
      · exact Or.inl (by simpa using hs)
    rw [this]
    exact gives_weaken (hf x) fun r c h => h

theorem honest_skip {o : Op} {h : Nat} {f : Outcome → Sys Bool} (hS : S o = false) (hf : ∀ x, Honest S (f x)) :
    Honest S (Sys.call o h >>= f) := honest_step hf fun h => by rw [hS] at h; cases h

theorem false_pure : Gives S (pure false : Sys Bool) fun r _ => r = false := gives_pure rfl

theorem honest_check {o : Op} {h : Nat} {k : Outcome → Sys Bool} (hk : ∀ x, Honest S (k x)) :
    Honest S (Sys.call o h >>= fun x => if x = .fail then pure false else k x) :=
  honest_step (fun x => honest_if (fun _ => honest_pure) fun _ => hk x) fun _ => by rw [if_pos rfl]; exact false_pure

theorem honest_last {o : Op} {h : Nat} : Honest S (do let x ← Sys.call o h; pure (x ≠ .fail : Bool)) :=
  honest_step (fun _ => honest_pure) fun _ => gives_pure (by decide)

theorem honest_deferring {o : Op} {h : Nat} {m : Sys Bool} (hS : S o = false) (hm : Honest S m) : Honest S (Sys.deferring o h m) := by
  unfold Sys.deferring
  refine gives_bind hm fun r c hc => ?_
  refine gives_bind (R := fun _ d => d = true) (gives_call fun x => by simp [hS]) fun x d hd => gives_pure fun hr => ?_
  simp [hc hr, hd]

theorem honest_open {f : Option Nat → Sys Bool} (hS : S .open = false) (hf : ∀ o, Honest S (f o)) : Honest S (Sys.openAny >>= f) := by
  refine gives_bind (R := fun _ c => c = true) ?_ fun o c hc => by rw [hc]; exact gives_weaken (hf o) fun _ _ h => h
  intro w t a t' e
  unfold Sys.openAny at e
  injection e with e1 e2
  exact ⟨_, e2.symm, by simp [noFail, hS]⟩

theorem honest_closing {body : Nat → Sys Bool} (h1 : S .open = false) (h2 : S .close = false) (hb : ∀ h, Honest S (body h)) :
    Honest S (closing body) := by
  refine honest_open h1 fun o => ?_
  cases o with
  | none => exact honest_pure
  | some h => exact honest_deferring h2 (hb h)

theorem honest_unclosed {body : Nat → Sys Bool} (h1 : S .open = false) (hb : ∀ h, Honest S (body h)) : Honest S (unclosed body) := by
  refine honest_open h1 fun o => ?_
  cases o with
  | none => exact honest_pure
  | some h => exact hb h

theorem honest_locking {h : Nat} {body : Sys Bool} (h1 : S .unlock = false) (hb : Honest S body) : Honest S (locking h body) :=
  honest_check fun _ => honest_deferring h1 hb

theorem honest_readTurns (c : Bool) (h : Nat) (hc : c = true ∨ S .read = false) (n : Nat) : Honest S (readTurns c h n) := by
  induction n with
  | zero => exact gives_never
  | succ n ih =>
    unfold readTurns
    refine honest_step (fun x => honest_if (fun _ => honest_pure) fun _ => honest_if (fun _ => honest_pure) fun _ => honest_check fun _ => ih) fun hS => ?_
    rcases hc with hc | hc
    · subst hc
      exact false_pure
    · rw [hc] at hS; cases hS

theorem honest_slurp (h : Nat) (n : Nat) : Honest S (slurp h n) := by
  induction n with
  | zero => exact gives_never
  | succ n ih =>
    unfold slurp
    exact honest_step (fun x => honest_if (fun _ => honest_pure) fun _ => honest_if (fun _ => honest_pure) fun _ => ih) fun _ => false_pure

theorem honest_copyLoop (fo fi : Nat) (n : Nat) : Honest S (copyLoop fo fi n) := by
  induction n with
  | zero => exact gives_never
  | succ n ih =>
    unfold copyLoop
    exact honest_step (fun x => honest_if (fun _ => honest_pure) fun _ => honest_if (fun _ => honest_pure) fun _ => honest_check fun _ => ih)
      fun _ => false_pure

theorem honest_convertLines (h : Nat) (n : Nat) : Honest S (convertLines h n) := by
  induction n with
  | zero => exact gives_never
  | succ n ih =>
    unfold convertLines
    exact honest_step (fun x => honest_if (fun _ => honest_pure) fun _ => honest_if (fun _ => honest_pure) fun _ => ih) fun _ => false_pure

/-- A step whose result decides. -/
theorem honest_then {m k : Sys Bool} (hm : Honest S m) (hk : Honest S k) : Honest S (m >>= fun c => if c = false then pure false else k) := by
  refine gives_bind hm fun c d hd => ?_
  cases c with
  | false => exact gives_pure fun h => by cases h
  | true => rw [hd rfl]; exact gives_weaken hk fun _ _ h => h

theorem honest_scanLoop (f : Bool) (h : Nat) (hf : f = true ∨ S .read = false) (n : Nat) : Honest S (scanLoop f h n) := by
  induction n with
  | zero => exact gives_never
  | succ n ih =>
    unfold scanLoop
    refine honest_step (fun x => honest_then (honest_convertLines h n) (honest_if (fun _ => honest_pure) fun _ =>
      honest_if (fun _ => honest_if (fun _ => gives_never) fun _ => honest_pure) fun _ => ih)) fun hS => ?_
    rcases hf with hf | hf
    · subst hf
      refine gives_bind (R := fun _ _ => True) (gives_weaken (honest_convertLines h n) fun _ _ _ => trivial) fun c d _ => ?_
      cases c with
      | false => exact gives_pure rfl
      | true => exact gives_never
    · rw [hf] at hS; cases hS

theorem honest_nameLoop {k : Nat → Sys Bool} (h1 : S .open = false) (hk : ∀ h, Honest S (k h)) (n : Nat) : Honest S (nameLoop k n) := by
  induction n with
  | zero => exact gives_never
  | succ n ih =>
    unfold nameLoop
    refine honest_check fun _ => honest_open h1 fun o => ?_
    cases o with
    | none => exact ih
    | some h => exact hk h

/-- The calls that drop an error. -/
inductive Spec.Lossy : Sys Bool → Prop where
  | boards (n) : Lossy (openBoardHeaderFileSys n)
  | users (n) : Lossy (openUserecFileSys n)
  | formosa (n) : Lossy (openFormosaSys n)
  | bad (n) : Lossy (openBadLoginSys n)
  | articles (n) : Lossy (openFileHeaderFileSys n)
  | removeBoard (n) : Lossy (removeBoardHeaderSys n)

/-- The calls are told apart by what they do: after the open, the update goes on where the others stop. -/
theorem not_lossy_update : ¬ Lossy updateFileHeaderSys := by
  intro h
  have key : ∀ m, Lossy m → (m (fun i => if i = 0 then .ok else .eof) []).2.length ≤ 4 := by
    intro m hm
    cases hm with
    | boards n => cases n <;> exact Nat.le_of_ble_eq_true rfl
    | users n => cases n <;> exact Nat.le_of_ble_eq_true rfl
    | formosa n => cases n <;> exact Nat.le_of_ble_eq_true rfl
    | bad n => rcases n with _ | _ | n <;> exact Nat.le_of_ble_eq_true rfl
    | articles n => cases n <;> exact Nat.le_of_ble_eq_true rfl
    | removeBoard n => exact Nat.le_of_ble_eq_true rfl
  exact absurd (key _ h) (by decide)

theorem fileCall_honest {m : Sys Bool} (hm : FileCall m) (h1 : S .open = false) (h2 : S .close = false) (h3 : S .unlock = false)
    (h4 : S .stat = false) (hl : ¬ Lossy m ∨ (S .read = false ∧ S .truncate = false)) : Honest S m := by
  cases hm with
  | boards n => exact honest_unclosed h1 fun h => honest_readTurns _ _ (Or.inr (hl.resolve_left fun h => h (.boards n)).1) _
  | users n => exact honest_unclosed h1 fun h => honest_readTurns _ _ (Or.inr (hl.resolve_left fun h => h (.users n)).1) _
  | online n => exact honest_unclosed h1 fun h => honest_readTurns _ _ (Or.inl rfl) _
  | formosa n => exact honest_unclosed h1 fun h => honest_readTurns _ _ (Or.inr (hl.resolve_left fun h => h (.formosa n)).1) _
  | recent n => exact honest_unclosed h1 fun h => honest_scanLoop _ _ (Or.inl rfl) _
  | bad n => exact honest_unclosed h1 fun h => honest_scanLoop _ _ (Or.inr (hl.resolve_left fun h => h (.bad n)).1) _
  | articles n => exact honest_closing h1 h2 fun h => honest_readTurns _ _ (Or.inr (hl.resolve_left fun h => h (.articles n)).1) _
  | article n => exact honest_closing h1 h2 fun h => honest_slurp _ _
  | file n => exact honest_closing h1 h2 fun h => honest_skip h4 fun _ => honest_slurp _ _
  | dir => exact honest_closing h1 h2 fun h => honest_last
  | write => exact honest_closing h1 h2 fun h => honest_locking h3 honest_last
  | append => exact honest_closing h1 h2 fun h => honest_locking h3 (honest_check fun _ => honest_last)
  | update => exact honest_closing h1 h2 fun h => honest_locking h3 (honest_check fun _ => honest_check fun _ => honest_last)
  | create n => exact honest_nameLoop h1 (fun h => honest_skip h2 fun _ => honest_pure) n
  | post n => exact honest_nameLoop h1 (fun h => honest_deferring h2 (honest_locking h3 honest_last)) n
  | draft => exact honest_closing h1 h2 fun h => honest_last
  | line => exact honest_closing h1 h2 fun h => honest_last
  | addBoard =>
    exact honest_closing h1 h2 fun h => honest_check fun _ => honest_check fun _ => honest_check fun _ => honest_skip h3 fun _ => honest_pure
  | removeBoard n =>
    exact honest_closing h1 h2 fun h => honest_check fun _ => honest_closing h1 h2 fun g => honest_check fun _ => honest_check fun _ =>
      honest_then (honest_copyLoop _ _ _) (honest_check fun _ => honest_skip (hl.resolve_left fun h => h (.removeBoard n)).2 fun _ =>
        honest_skip h3 fun _ => honest_pure)

/-! ## C111: success means that nothing failed -/

/-- Locking, moving, reading, converting, writing and cutting: the operations a caller depends on. -/
def Spec.matters : Op → Bool
  | .lock | .seek | .read | .convert | .write | .truncate => true
  | _ => false

/-- Without reading and cutting. -/
def Spec.storing : Op → Bool
  | .lock | .seek | .convert | .write => true
  | _ => false

/-- The full claim of C111: when a call reports success, nothing that it did has failed. -/
def Spec.C111 : Prop := ∀ m, FileCall m → ∀ w t t', m w t = (some true, t') → ∃ u, t' = t ++ u ∧ noFail matters u = true

/-- **C111, the part that holds**: after success no lock, seek, conversion or write has failed, for every call. (Missing for the full claim:
reads and the cut.) -/
theorem C111_stored_partial (m : Sys Bool) (hm : FileCall m) (w : Nat → Outcome) (t t' : List Ev) (e : m w t = (some true, t')) :
    ∃ u, t' = t ++ u ∧ ∀ e ∈ u, e.op = .lock ∨ e.op = .seek ∨ e.op = .convert ∨ e.op = .write → e.out ≠ .fail := by
  obtain ⟨u, h1, h2⟩ := fileCall_honest (S := storing) hm rfl rfl rfl rfl (Or.inr ⟨rfl, rfl⟩) w t true t' e
  refine ⟨u, h1, fun x hx ho hf => ?_⟩
  have := List.all_eq_true.1 (h2 rfl) x hx
  rcases ho with ho | ho | ho | ho <;> rw [ho, hf] at this <;> exact absurd this (by decide)

example : FileCall (removeBoardHeaderSys 1) ∧ ∃ t, removeBoardHeaderSys 1 (fun i => if i = 5 then .eof else .ok) [] = (some true, t) ∧
    t.length = 11 := ⟨.removeBoard 1, _, rfl, rfl⟩

/-- **C111, the part that holds**: for calls other than the five list readers that do not look at the error and the removal of a board, nothing
has failed. (Missing for the full claim: those six.) -/
theorem C111_success_partial (m : Sys Bool) (hm : FileCall m) (hl : ¬ Lossy m) (w : Nat → Outcome) (t t' : List Ev)
    (e : m w t = (some true, t')) : ∃ u, t' = t ++ u ∧ noFail matters u = true := by
  obtain ⟨u, h1, h2⟩ := fileCall_honest (S := matters) hm rfl rfl rfl rfl (Or.inl hl) w t true t' e
  exact ⟨u, h1, h2 rfl⟩

example : FileCall updateFileHeaderSys ∧ ¬ Lossy updateFileHeaderSys ∧ ∃ t, updateFileHeaderSys (fun _ => .ok) [] = (some true, t) ∧ t.length = 7 :=
  ⟨.update, not_lossy_update, _, rfl, rfl⟩

/-- **C111 is false of the code**: each of the six calls can succeed although something failed. -/
theorem C111_success_refuted : ¬ Spec.C111 ∧
    (∃ w t, openBoardHeaderFileSys 2 w [] = (some true, t) ∧ noFail matters t = false) ∧
    (∃ w t, openUserecFileSys 2 w [] = (some true, t) ∧ noFail matters t = false) ∧
    (∃ w t, openFormosaSys 2 w [] = (some true, t) ∧ noFail matters t = false) ∧
    (∃ w t, openBadLoginSys 2 w [] = (some true, t) ∧ noFail matters t = false) ∧
    (∃ w t, openFileHeaderFileSys 2 w [] = (some true, t) ∧ noFail matters t = false) ∧
    (∃ w t, removeBoardHeaderSys 1 w [] = (some true, t) ∧ noFail matters t = false) := by
  have h1 : ∃ w t, openBoardHeaderFileSys 2 w [] = (some true, t) ∧ noFail matters t = false :=
    ⟨fun i => if i = 1 then .fail else if i = 3 then .eof else .ok, _, rfl, rfl⟩
  refine ⟨fun h => ?_, h1, ⟨fun i => if i = 1 then .fail else if i = 3 then .eof else .ok, _, rfl, rfl⟩,
    ⟨fun i => if i = 1 then .fail else if i = 3 then .eof else .ok, _, rfl, rfl⟩,
    ⟨fun i => if i = 1 then .fail else if i = 2 then .eof else .ok, _, rfl, rfl⟩,
    ⟨fun i => if i = 1 then .fail else if i = 3 then .eof else .ok, _, rfl, rfl⟩,
    ⟨fun i => if i = 5 then .eof else if i = 7 then .fail else .ok, _, rfl, rfl⟩⟩
  obtain ⟨w, t, h2, h3⟩ := h1
  obtain ⟨u, h4, h5⟩ := h _ (.boards 2) w [] t h2
  rw [List.nil_append] at h4
  rw [h4] at h3
  rw [h3] at h5
  cases h5

/-! ## C112: a file that cannot be read -/

/-- A path that can be opened but not read, such as a directory: every other operation works. The events of the readers
come in the order open, then read and convert in turn. -/
def Spec.unreadable (i : Nat) : Outcome := if i % 2 = 1 then .fail else .ok

/-- The list readers. -/
inductive Spec.Lister : (Nat → Sys Bool) → Prop where
  | boards : Lister openBoardHeaderFileSys
  | users : Lister openUserecFileSys
  | online : Lister openUserInfoCacheSys
  | formosa : Lister openFormosaSys
  | articles : Lister openFileHeaderFileSys
  | article : Lister readArticleSys

/-- The full claim of C112: reading something that can be opened but not read ends with an error. -/
def Spec.C112 : Prop := ∀ m, Lister m → ∃ n t, m n unreadable [] = (some false, t)

theorem call_then (o : Op) (h : Nat) (f : Outcome → Sys α) (w : Nat → Outcome) (t : List Ev) :
    (Sys.call o h >>= f) w t = f (w t.length) w (t ++ [⟨o, h, w t.length⟩]) := rfl

theorem readTurns_hangs (h n : Nat) (t : List Ev) (ht : t.length % 2 = 1) : (readTurns false h n unreadable t).1 = none := by
  induction n generalizing t with
  | zero => rfl
  | succ n ih =>
    have h0 : unreadable t.length = .fail := by unfold unreadable; rw [if_pos ht]
    have h1 : unreadable (t.length + 1) = .ok := by unfold unreadable; rw [if_neg (by omega)]
    unfold readTurns
    rw [call_then, h0, if_neg (by decide), if_neg (by decide), call_then, List.length_append]
    simp only [List.length_cons, List.length_nil, h1]
    rw [if_neg (by decide)]
    exact ih _ (by simp; omega)

/-- **C112, exactly**: the listings of boards, users and articles (in both formats) never return; the list of online users and the article
reader answer with an error. -/
theorem C112_exact :
    (∀ n, (openBoardHeaderFileSys n unreadable []).1 = none) ∧ (∀ n, (openUserecFileSys n unreadable []).1 = none) ∧
    (∀ n, (openFormosaSys n unreadable []).1 = none) ∧ (∀ n, (openFileHeaderFileSys n unreadable []).1 = none) ∧
    (∀ n, (openUserInfoCacheSys (n + 1) unreadable []).1 = some false) ∧ (∀ n, (readArticleSys (n + 1) unreadable []).1 = some false) := by
  refine ⟨fun n => readTurns_hangs 0 n [⟨.open, 0, .ok⟩] rfl, fun n => readTurns_hangs 0 n [⟨.open, 0, .ok⟩] rfl,
    fun n => readTurns_hangs 0 n [⟨.open, 0, .ok⟩] rfl, fun n => ?_, fun n => rfl, fun n => rfl⟩
  have := readTurns_hangs 0 n [⟨.open, 0, .ok⟩] rfl
  change (Sys.bind (readTurns false 0 n) _ unreadable [⟨.open, 0, .ok⟩]).1 = none
  unfold Sys.bind
  split
  · next h => rw [h] at this; cases this
  · rfl

/-- **C112 is false of the code.** -/
theorem C112_unreadable_refuted : ¬ Spec.C112 := by
  intro h
  obtain ⟨n, t, e⟩ := h _ .boards
  have := C112_exact.1 n
  rw [e] at this
  cases this

/-- **C112, the part that holds**: online users and articles. (Missing for the full claim: the other four.) -/
theorem C112_unreadable_partial (m : Nat → Sys Bool) (hm : m = openUserInfoCacheSys ∨ m = readArticleSys) :
    ∃ n t, m n unreadable [] = (some false, t) := by
  rcases hm with rfl | rfl
  · exact ⟨1, _, rfl⟩
  · exact ⟨1, _, rfl⟩

end Verif
