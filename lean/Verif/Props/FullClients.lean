import Verif.Model.FullClients
import Verif.Props.RefusedClients
import Verif.Props.FullDisk
/-!
# C146: what is in a list when the disk gets full while several clients add to it
-/

namespace Verif
open Spec

/-! ## The claim -/

/-- Bytes that a call of a client has added to a file: all of them, or the first ones. -/
structure Spec.Piece where
  client : Nat
  bytes : Bytes
  whole : Bool

/-- What client `p` has added as a whole, in order. -/
def Spec.wholeOf (p : Nat) (pieces : List Piece) : List Bytes := pieces.filterMap fun x => if x.client = p ∧ x.whole = true then some x.bytes else none

/-- The list of board `b` goes on showing what is answered with success. -/
def Spec.FullListed : Prop :=
  ∀ (db : DB) (c : Codec) (fs : FS) (b path : Bytes) (todo : Nat → List Call) (sched : List (Nat × Nat × Option Nat)),
    getBoardArticlesDirectoryPath db.home b = .ok path → 128 ∣ (bytesAt fs (resolve db.cwd path)).length →
    (∀ p, ∀ op ∈ todo p, (∃ r, op = .addRecord b r) ∨ LeavesAlone db (resolve db.cwd path) op) →
    (∀ p, (((fresh fs todo).runIn db c sched).1.clients p).now = none) →
    ∀ p r, .addRecord b r ∈ succeeded p none ((fresh fs todo).runIn db c sched).2 →
      storedArticle c r ∈ articlesIn c (bytesAt ((fresh fs todo).runIn db c sched).1.fs (resolve db.cwd path))

/-! ## One system call -/

theorem avoids_stepIn {cwd l : Path} {j : Job} (h : Avoids cwd l j) (fs : FS) (n : Nat) (room : Option Nat) :
    (j.stepIn cwd fs n room).1.get l = fs.get l ∧ Avoids cwd l (j.stepIn cwd fs n room).2 := by
  have plain := avoids_step h fs n none
  simp only [Job.stepUnder] at plain
  cases room with
  | none => exact plain
  | some r =>
    cases j with
    | openMake p k =>
      simp only [Job.stepIn]
      split
      · next l' d ho =>
        split
        · exact ⟨rfl, h.2 _ nofun⟩
        · exact ⟨rfl, h.2 _ fun l'' e => by cases e; exact openCreate_resolve ho⟩
      · exact plain
    | openTrunc p k =>
      simp only [Job.stepIn]
      split
      · split
        · exact ⟨rfl, h.2 _ nofun⟩
        · exact plain
      · exact plain
    | openExcl p k => exact ⟨rfl, h.2 _⟩
    | append l' bs k =>
      simp only [Job.stepIn]
      split
      · refine ⟨?_, trivial⟩
        simp only [Job.halt]
        split
        · exact get_set_ne h.1 _
        · rfl
      · exact plain
    | put l' bs k =>
      simp only [Job.stepIn]
      split
      · refine ⟨?_, trivial⟩
        simp only [Job.halt]
        split
        · exact get_set_ne h.1 _
        · rfl
      · exact plain
    | _ => exact plain

/-- One system call: what it adds as a whole, or the beginning that it adds. -/
theorem phase_stepIn {db : DB} {c : Codec} {l : Path} {fs : FS} {cur : Option Call} {j : Job} {pend : List Bytes} (h : Phase db c l fs cur (some j) pend)
    (hd : ∀ r, j ≠ .done r) (n : Nat) (room : Option Nat) :
    (IsFile fs l → IsFile (j.stepIn db.cwd fs n room).1 l) ∧
    ((∃ out : List Bytes, Phase db c l (j.stepIn db.cwd fs n room).1 cur (some (j.stepIn db.cwd fs n room).2) (pend ++ out) ∧
      bytesAt (j.stepIn db.cwd fs n room).1 l = bytesAt fs l ++ out.flatten) ∨
    ∃ op bs k, cur = some op ∧ addedTo db c l op = some bs ∧ room = some k ∧ k < bs.length ∧
      Phase db c l (j.stepIn db.cwd fs n room).1 cur (some (j.stepIn db.cwd fs n room).2) pend ∧
      bytesAt (j.stepIn db.cwd fs n room).1 l = bytesAt fs l ++ bs.take k) := by
  have plain := phase_step h hd n none
  simp only [Job.stepUnder] at plain
  have plain' : (IsFile fs l → IsFile (j.step db.cwd fs n).1 l) ∧
      ∃ out : List Bytes, Phase db c l (j.step db.cwd fs n).1 cur (some (j.step db.cwd fs n).2) (pend ++ out) ∧
        bytesAt (j.step db.cwd fs n).1 l = bytesAt fs l ++ out.flatten := by
    obtain ⟨out, h1, h2, h3⟩ := plain
    exact ⟨h3, out, h1, h2⟩
  cases room with
  | none => exact ⟨plain'.1, .inl plain'.2⟩
  | some r =>
    cases h with
    | other h hj =>
      obtain ⟨h1, h2⟩ := avoids_stepIn hj fs n (some r)
      exact ⟨fun ⟨d, hf⟩ => ⟨d, h1.trans hf⟩, .inl ⟨[], .other h h2, by rw [bytesAt_eq h1]; simp⟩⟩
    | @making op bs p h hp =>
      have hs : ∀ l' d, fs.openCreate db.cwd p = .ok (l', d) → (fs.get l').isNone = false → Job.step db.cwd fs n (.openMake p (Job.orStop (adding bs))) =
          (fs, Job.orStop (adding bs) (.ok l')) := by
        intro l' d ho hn
        simp only [Job.step, ho, hn]
        rfl
      simp only [Job.stepIn]
      split
      · next l' d ho =>
        cases hn : (fs.get l').isNone with
        | true => exact ⟨id, .inl ⟨[], .failed h nofun, by simp⟩⟩
        | false =>
          rw [hs l' d ho hn] at plain'
          exact ⟨plain'.1, .inl plain'.2⟩
      · exact ⟨plain'.1, .inl plain'.2⟩
    | @opening op bs p h hp => exact ⟨plain'.1, .inl plain'.2⟩
    | @adding op bs h hf =>
      by_cases hr : r < bs.length
      · obtain ⟨d, hg⟩ := hf
        have hs := get_set_self (fs := fs) (l := l) (file_ne_root (by rw [hg]; nofun)) (.file (d ++ bs.take r))
        simp only [Verif.adding, Job.stepIn, if_pos hr, Job.halt, hg]
        exact ⟨fun _ => ⟨_, hs⟩, .inr ⟨op, bs, r, rfl, h, rfl, hr, .failed h nofun, by simp [bytesAt, hs, hg]⟩⟩
      · have : (Verif.adding bs l).stepIn db.cwd fs n (some r) = (Verif.adding bs l).step db.cwd fs n := by
          simp only [Verif.adding, Job.stepIn, if_neg hr]
        rw [this]
        exact ⟨plain'.1, .inl plain'.2⟩
    | added h => exact absurd rfl (hd _)
    | failed h hr => exact absurd rfl (hd _)

/-! ## Runs -/

theorem stepIn_done {db : DB} {c : Codec} {s : Site} {p : Nat} {todo : List Call} {r : Res Answer} (h : s.clients p = ⟨todo, some (.done r)⟩) (n : Nat)
    (e : Option Nat) : s.stepIn db c p n e = (s.setClient s.fs p ⟨todo, none⟩, [.ret p r]) := by
  unfold Site.stepIn
  rw [h]
  cases todo <;> rfl

theorem stepIn_job {db : DB} {c : Codec} {s : Site} {p : Nat} {todo : List Call} {j : Job} (h : s.clients p = ⟨todo, some j⟩) (hd : ∀ r, j ≠ .done r)
    (n : Nat) (e : Option Nat) :
    s.stepIn db c p n e = (s.setClient (j.stepIn db.cwd s.fs n e).1 p ⟨todo, some (j.stepIn db.cwd s.fs n e).2⟩, []) := by
  unfold Site.stepIn
  rw [h]
  cases j with
  | done r => exact absurd rfl (hd r)
  | _ => cases todo <;> rfl

/-- The calls that are made and still to be made are among `T`. -/
def Among (T : Nat → List Call) (s : Site) (cur : Nat → Option Call) : Prop :=
  ∀ p, (∀ op, cur p = some op → op ∈ T p) ∧ ∀ op ∈ (s.clients p).todo, op ∈ T p

theorem among_set {T : Nat → List Call} {s : Site} {cur : Nat → Option Call} (h : Among T s cur) {fs : FS} {p : Nat} {x : Client} {u : Option Call}
    (hu : ∀ op, u = some op → op ∈ T p) (hx : ∀ op ∈ x.todo, op ∈ (s.clients p).todo) : Among T (s.setClient fs p x) (putAt cur p u) := by
  intro q
  by_cases e : q = p
  · subst e
    rw [putAt_self]
    exact ⟨hu, fun op hop => (h q).2 op (hx op (by simpa [Site.setClient] using hop))⟩
  · rw [putAt_other _ _ e]
    exact ⟨(h q).1, fun op hop => (h q).2 op (by simpa [Site.setClient, e] using hop)⟩

/-- A piece that is not whole is the beginning of what a call of its client was to add, as long as the room that there was. -/
def Torn (db : DB) (c : Codec) (l : Path) (T : Nat → List Call) (rooms : List (Nat × Nat × Option Nat)) (x : Piece) : Prop :=
  ∃ op ∈ T x.client, ∃ bs k n, addedTo db c l op = some bs ∧ (x.client, n, some k) ∈ rooms ∧ k < bs.length ∧ x.bytes = bs.take k

theorem stands_stepIn {db : DB} {c : Codec} {l : Path} {T : Nat → List Call} {s : Site} {cur : Nat → Option Call} {pend : Nat → List Bytes}
    (h : Stands db c l s cur pend) (hT : Among T s cur) (p n : Nat) (e : Option Nat) :
    ∃ (cur' : Nat → Option Call) (pend' : Nat → List Bytes) (pieces : List Piece), Stands db c l (s.stepIn db c p n e).1 cur' pend' ∧
      Among T (s.stepIn db c p n e).1 cur' ∧
      bytesAt (s.stepIn db c p n e).1.fs l = bytesAt s.fs l ++ (pieces.map (·.bytes)).flatten ∧
      (∀ x ∈ pieces, x.whole = false → Torn db c l T [(p, n, e)] x) ∧
      ∀ q, ∃ told : List Bytes,
        (∀ es, (succeeded q (cur q) ((s.stepIn db c p n e).2 ++ es)).filterMap (addedTo db c l) =
          told ++ (succeeded q (cur' q) es).filterMap (addedTo db c l)) ∧ pend q ++ wholeOf q pieces = told ++ pend' q := by
  have hp := h.phases p
  have ht := h.todo p
  rcases hc : s.clients p with ⟨todo, now⟩
  rw [hc] at hp ht
  cases now with
  | none =>
    unfold Site.stepIn
    rw [hc]
    cases todo with
    | nil => exact ⟨cur, pend, [], h, hT, by simp, by simp, fun q => ⟨[], fun es => by simp, by simp [wholeOf]⟩⟩
    | cons op rest =>
      refine ⟨putAt cur p (some op), putAt pend p [], [], stands_set h id (phase_start s.fs (ht op (by simp))) (by rw [hc]; simp +contextual),
        among_set hT (fun op' e => (hT p).2 op' (by cases e; rw [hc]; simp)) (by rw [hc]; simp +contextual), by simp [Site.setClient], by simp,
        fun q => ⟨[], fun es => ?_, ?_⟩⟩
      · by_cases e : q = p
        · subst e; simp [succeeded, putAt_self]
        · simp [succeeded, putAt_other _ _ e, Ne.symm e]
      · by_cases e : q = p
        · subst e
          cases hp' : pend q with
          | nil => simp [wholeOf, putAt_self]
          | cons a t => rw [hp'] at hp; generalize cur q = u at hp; cases hp
        · simp [wholeOf, putAt_other _ _ e]
  | some j =>
    by_cases hd : ∃ r, j = .done r
    · obtain ⟨r, rfl⟩ := hd
      rw [stepIn_done hc]
      refine ⟨putAt cur p none, putAt pend p [], [], stands_set h id .idle (by rw [hc]; simp), among_set hT nofun (by rw [hc]; simp),
        by simp [Site.setClient], by simp, fun q => ?_⟩
      by_cases e : q = p
      · subst e
        refine ⟨pend q, fun es => ?_, by simp [wholeOf, putAt_self]⟩
        simp only [List.singleton_append, succeeded, if_pos, putAt_self, List.filterMap_append]
        congr 1
        generalize cur q = u at hp
        generalize pend q = v at hp
        cases hp with
        | other h hj => cases r <;> simp [h]
        | added h => simp [h]
        | failed h hr => cases r with
          | ok a => exact absurd rfl (hr a)
          | _ => simp
      · exact ⟨[], fun es => by simp [succeeded, putAt_other _ _ e, Ne.symm e], by simp [wholeOf, putAt_other _ _ e]⟩
    · have hd' : ∀ r, j ≠ .done r := fun r e => hd ⟨r, e⟩
      rw [stepIn_job hc hd']
      have same : ∀ q es, (succeeded q (cur q) ([] ++ es)).filterMap (addedTo db c l) =
          [] ++ (succeeded q (putAt cur p (cur p) q) es).filterMap (addedTo db c l) := by
        intro q es
        by_cases e : q = p
        · subst e; simp [putAt_self]
        · simp [putAt_other _ _ e]
      obtain ⟨h3, ⟨out, h1, h2⟩ | ⟨op, bs, k, hcur, hadd, rfl, hk, h1, h2⟩⟩ := phase_stepIn hp hd' n e
      · refine ⟨putAt cur p (cur p), putAt pend p (pend p ++ out), out.map fun b => ⟨p, b, true⟩, stands_set h h3 h1 (by rw [hc]; simp),
          among_set hT (hT p).1 (by rw [hc]; simp), ?_, by simp, fun q => ⟨[], same q, ?_⟩⟩
        · simp only [Site.setClient, List.map_map]
          rw [h2]
          simp [Function.comp_def]
        · by_cases e : q = p
          · subst e; simp [putAt_self, wholeOf, List.filterMap_map, Function.comp_def]
          · simp [putAt_other _ _ e, wholeOf, List.filterMap_map, Function.comp_def, Ne.symm e]
      · refine ⟨putAt cur p (cur p), putAt pend p (pend p), [⟨p, bs.take k, false⟩], stands_set h h3 h1 (by rw [hc]; simp),
          among_set hT (hT p).1 (by rw [hc]; simp), ?_, ?_, fun q => ⟨[], same q, ?_⟩⟩
        · simp only [Site.setClient]
          rw [h2]
          simp
        · intro x hx _
          rw [List.mem_singleton.mp hx]
          exact ⟨op, (hT p).1 op hcur, bs, k, n, hadd, List.mem_singleton.mpr rfl, hk, rfl⟩
        · by_cases e : q = p
          · subst e; simp [putAt_self, wholeOf]
          · simp [putAt_other _ _ e, wholeOf]

theorem stands_runIn {db : DB} {c : Codec} {l : Path} {T : Nat → List Call} : ∀ (sched : List (Nat × Nat × Option Nat)) {s : Site}
    {cur : Nat → Option Call} {pend : Nat → List Bytes}, Stands db c l s cur pend → Among T s cur →
    ∃ (cur' : Nat → Option Call) (pend' : Nat → List Bytes) (pieces : List Piece), Stands db c l (s.runIn db c sched).1 cur' pend' ∧
      bytesAt (s.runIn db c sched).1.fs l = bytesAt s.fs l ++ (pieces.map (·.bytes)).flatten ∧
      (∀ x ∈ pieces, x.whole = false → Torn db c l T sched x) ∧
      ∀ q, pend q ++ wholeOf q pieces = (succeeded q (cur q) (s.runIn db c sched).2).filterMap (addedTo db c l) ++ pend' q
  | [], s, cur, pend, h, _ => ⟨cur, pend, [], h, by simp [Site.runIn], by simp, fun q => by simp [wholeOf, Site.runIn, succeeded]⟩
  | (p, n, e) :: sched, s, cur, pend, h, hT => by
    obtain ⟨cur1, pend1, o1, h1, hT1, hb1, hk1, ht1⟩ := stands_stepIn h hT p n e
    obtain ⟨cur2, pend2, o2, h2, hb2, hk2, ht2⟩ := stands_runIn sched h1 hT1
    have wider : ∀ {a b : List (Nat × Nat × Option Nat)} {x : Piece}, (∀ y ∈ a, y ∈ b) → Torn db c l T a x → Torn db c l T b x :=
      fun hab ⟨op, ho, bs, k, n, u1, u2, u3, u4⟩ => ⟨op, ho, bs, k, n, u1, hab _ u2, u3, u4⟩
    refine ⟨cur2, pend2, o1 ++ o2, h2, ?_, fun x hx hw => ?_, fun q => ?_⟩
    · show bytesAt (((s.stepIn db c p n e).1.runIn db c sched).1).fs l = _
      rw [hb2, hb1]
      simp
    · rcases List.mem_append.mp hx with hx | hx
      · exact wider (by simp) (hk1 x hx hw)
      · exact wider (fun y hy => List.mem_cons_of_mem _ hy) (hk2 x hx hw)
    · obtain ⟨told, ha, hb⟩ := ht1 q
      have e1 : wholeOf q (o1 ++ o2) = wholeOf q o1 ++ wholeOf q o2 := List.filterMap_append
      show _ = (succeeded q (cur q) ((s.stepIn db c p n e).2 ++ ((s.stepIn db c p n e).1.runIn db c sched).2)).filterMap _ ++ _
      rw [ha, e1, ← List.append_assoc, hb, List.append_assoc, ht2 q, List.append_assoc]

/-! ## What holds -/

/-- **C146, piece by piece.** Several clients add to a file that no other call writes to, and the disk gets full and has room again at any moments. The
file holds what it held, followed by pieces: for every client, in its order, all of what each call answered with success was to add, and perhaps
that of a call without an answer yet; every other piece is the beginning of what a call was to add, as long as the room that there was. -/
theorem C146_pieces (db : DB) (c : Codec) (l : Path) (fs : FS) (todo : Nat → List Call) (sched : List (Nat × Nat × Option Nat))
    (h : ∀ p, ∀ op ∈ todo p, (∃ bs, addedTo db c l op = some bs) ∨ LeavesAlone db l op) :
    ∃ pieces : List Piece, bytesAt ((fresh fs todo).runIn db c sched).1.fs l = bytesAt fs l ++ (pieces.map (·.bytes)).flatten ∧
      (∀ p, ∃ open_ : List Bytes, wholeOf p pieces =
          (succeeded p none ((fresh fs todo).runIn db c sched).2).filterMap (addedTo db c l) ++ open_ ∧ open_.length ≤ 1 ∧
        ((((fresh fs todo).runIn db c sched).1.clients p).now = none → open_ = [])) ∧
      ∀ x ∈ pieces, x.whole = false → ∃ op ∈ todo x.client, ∃ bs k n, addedTo db c l op = some bs ∧ (x.client, n, some k) ∈ sched ∧
        k < bs.length ∧ x.bytes = bs.take k := by
  obtain ⟨cur, pend, pieces, h1, h2, h3, h4⟩ := stands_runIn sched (T := todo) (s := fresh fs todo) (cur := fun _ => none) (pend := fun _ => [])
    ⟨fun p => .idle, fun p op hop => h p op hop⟩ fun p => ⟨nofun, fun op hop => hop⟩
  exact ⟨pieces, h2, fun p => ⟨pend p, h4 p, phase_pend (h1.phases p)⟩, h3⟩

theorem slots_append {size : Nat} (hs : 0 < size) {d : Bytes} (hd : size ∣ d.length) (x : Bytes) : slots size (d ++ x) = slots size d ++ slots size x := by
  obtain ⟨n, hn⟩ := hd
  have h1 : ((d ++ x).length + size - 1) / size = n + (x.length + size - 1) / size := by
    rw [List.length_append, hn, show size * n + x.length + size - 1 = (x.length + size - 1) + size * n by omega, Nat.add_mul_div_left _ _ hs, Nat.add_comm]
  have h2 : (d.length + size - 1) / size = n := by
    rw [hn, show size * n + size - 1 = (size - 1) + size * n by omega, Nat.add_mul_div_left _ _ hs, Nat.div_eq_of_lt (by omega), Nat.zero_add]
  unfold slots
  rw [h1, h2, List.range_add, List.map_append, List.map_map]
  congr 1
  · refine List.map_congr_left fun k hk => ?_
    have hk := List.mem_range.mp hk
    have : size * k + size ≤ size * n := by rw [← Nat.mul_succ]; exact Nat.mul_le_mul_left _ hk
    unfold slot slice
    congr 1
    rw [List.take_append_of_le_length (by omega)]
  · refine List.map_congr_left fun k _ => ?_
    show slot size (d ++ x) (n + k) = slot size x k
    unfold slot slice
    congr 1
    rw [Nat.mul_add, ← hn, Nat.add_assoc, List.take_length_add_append, List.drop_length_add_append]

/-- **C146, texts.** Whatever a call answered with success was to add stands in the file in one piece, after what was there at first. -/
theorem C146_text (db : DB) (c : Codec) (l : Path) (fs : FS) (todo : Nat → List Call) (sched : List (Nat × Nat × Option Nat))
    (h : ∀ p, ∀ op ∈ todo p, (∃ bs, addedTo db c l op = some bs) ∨ LeavesAlone db l op) (p : Nat) (op : Call) (bs : Bytes)
    (ho : op ∈ succeeded p none ((fresh fs todo).runIn db c sched).2) (hb : addedTo db c l op = some bs) :
    ∃ before after, bytesAt ((fresh fs todo).runIn db c sched).1.fs l = bytesAt fs l ++ before ++ bs ++ after := by
  obtain ⟨pieces, h1, h2, _⟩ := C146_pieces db c l fs todo sched h
  obtain ⟨u, hu, _⟩ := h2 p
  have : bs ∈ wholeOf p pieces := by
    rw [hu]
    exact List.mem_append_left _ (List.mem_filterMap.mpr ⟨op, ho, hb⟩)
  obtain ⟨x, hx, e⟩ := List.mem_filterMap.mp this
  split at e
  · cases e
    obtain ⟨a, b, rfl⟩ := List.append_of_mem hx
    exact ⟨(a.map (·.bytes)).flatten, (b.map (·.bytes)).flatten, by rw [h1]; simp⟩
  · cases e

/-- **C146, what was there.** The records that were in a list of whole records at first are read as before, whatever is added in whatever pieces. -/
theorem C146_old (db : DB) (c : Codec) (l : Path) (fs : FS) (todo : Nat → List Call) (sched : List (Nat × Nat × Option Nat))
    (h : ∀ p, ∀ op ∈ todo p, (∃ bs, addedTo db c l op = some bs) ∨ LeavesAlone db l op) :
    (128 ∣ (bytesAt fs l).length → articlesIn c (bytesAt fs l) <+: articlesIn c (bytesAt ((fresh fs todo).runIn db c sched).1.fs l)) ∧
    (256 ∣ (bytesAt fs l).length → boardsIn c (bytesAt fs l) <+: boardsIn c (bytesAt ((fresh fs todo).runIn db c sched).1.fs l)) := by
  obtain ⟨pieces, h1, _⟩ := C146_pieces db c l fs todo sched h
  refine ⟨fun hd => ?_, fun hd => ?_⟩
  · unfold articlesIn
    rw [h1, slots_append (by omega) hd, List.map_append]
    exact List.prefix_append ..
  · unfold boardsIn
    rw [h1, slots_append (by omega) hd, List.map_append]
    exact List.prefix_append ..

theorem called_stepIn {db : DB} {c : Codec} {s : Site} {p n : Nat} {e : Option Nat} :
    (∀ q op, op ∈ ((s.stepIn db c p n e).1.clients q).todo → op ∈ (s.clients q).todo) ∧
      ∀ q op, Event.call q op ∈ (s.stepIn db c p n e).2 → op ∈ (s.clients q).todo := by
  have set : ∀ {fs : FS} {x : Client}, (∀ op ∈ x.todo, op ∈ (s.clients p).todo) →
      ∀ q op, op ∈ ((s.setClient fs p x).clients q).todo → op ∈ (s.clients q).todo := by
    intro fs x hx q op h
    by_cases e : q = p
    · subst e; exact hx op (by simpa [Site.setClient] using h)
    · simpa [Site.setClient, e] using h
  rcases hc : s.clients p with ⟨todo, now⟩
  cases now with
  | none =>
    unfold Site.stepIn
    rw [hc]
    cases todo with
    | nil => exact ⟨fun _ _ h => h, fun _ _ h => by cases h⟩
    | cons op rest =>
      refine ⟨set (by rw [hc]; exact fun op h => List.mem_cons_of_mem _ h), fun q op' h => ?_⟩
      cases List.mem_singleton.mp h
      rw [hc]
      exact List.mem_cons_self ..
  | some j =>
    by_cases hd : ∃ r, j = .done r
    · obtain ⟨r, rfl⟩ := hd
      rw [stepIn_done hc]
      exact ⟨set (by rw [hc]; exact fun _ h => h), fun q op h => by cases List.mem_singleton.mp h⟩
    · rw [stepIn_job hc fun r e => hd ⟨r, e⟩]
      exact ⟨set (by rw [hc]; exact fun _ h => h), fun q op h => by cases h⟩

theorem called_runIn {db : DB} {c : Codec} {q : Nat} {op : Call} : ∀ (sched : List (Nat × Nat × Option Nat)) {s : Site},
    Event.call q op ∈ (s.runIn db c sched).2 → op ∈ (s.clients q).todo
  | [], _, h => by cases h
  | (p, n, e) :: sched, s, h => by
    rcases List.mem_append.mp (show Event.call q op ∈ (s.stepIn db c p n e).2 ++ ((s.stepIn db c p n e).1.runIn db c sched).2 from h) with h | h
    · exact called_stepIn.2 q op h
    · exact called_stepIn.1 q op (called_runIn sched h)

/-- The pieces that are whole, with their clients. -/
def wholes (pieces : List Piece) : List (Nat × Bytes) := pieces.filterMap fun x => if x.whole = true then some (x.client, x.bytes) else none

theorem partOf_wholes (p : Nat) (pieces : List Piece) : partOf p (wholes pieces) = wholeOf p pieces := by
  induction pieces with
  | nil => rfl
  | cons x xs ih =>
    unfold wholes wholeOf at ih ⊢
    rw [List.filterMap_cons, List.filterMap_cons]
    cases hw : x.whole with
    | true =>
      simp only [if_true, and_true]
      rw [partOf_cons, ih]
      split <;> rfl
    | false => simpa using ih

theorem flatten_wholes {pieces : List Piece} (h : ∀ x ∈ pieces, x.whole = false → x.bytes = []) :
    (pieces.map (·.bytes)).flatten = ((wholes pieces).map (·.2)).flatten := by
  induction pieces with
  | nil => rfl
  | cons x xs ih =>
    have ih := ih fun y hy => h y (List.mem_cons_of_mem _ hy)
    unfold wholes at ih ⊢
    rw [List.map_cons, List.flatten_cons, ih, List.filterMap_cons]
    cases hw : x.whole with
    | true => simp
    | false => simp [h x (List.mem_cons_self ..) hw]

/-- **C146, lists of articles.** If a `write` finds room for a whole record or for nothing, the list of a board reads as it did, followed by the records
whose adding was answered with success, when no call is under way. Missing from the full claim: a `write` that stores a part of a record. -/
theorem C146_partial (db : DB) (c : Codec) (fs : FS) (b path : Bytes) (todo : Nat → List Call) (sched : List (Nat × Nat × Option Nat))
    (hp : getBoardArticlesDirectoryPath db.home b = .ok path) (hd : 128 ∣ (bytesAt fs (resolve db.cwd path)).length)
    (h : ∀ p, ∀ op ∈ todo p, (∃ r, op = .addRecord b r) ∨ LeavesAlone db (resolve db.cwd path) op)
    (hroom : ∀ p n k, (p, n, some k) ∈ sched → k = 0 ∨ 128 ≤ k)
    (hidle : ∀ p, (((fresh fs todo).runIn db c sched).1.clients p).now = none) :
    ∃ order : List (Nat × FileHeader),
      articlesIn c (bytesAt ((fresh fs todo).runIn db c sched).1.fs (resolve db.cwd path)) =
        articlesIn c (bytesAt fs (resolve db.cwd path)) ++ order.map (·.2) ∧
      ∀ p, partOf p order = (succeeded p none ((fresh fs todo).runIn db c sched).2).filterMap (recordAdded c b) := by
  have hadd : ∀ r, addedTo db c (resolve db.cwd path) (.addRecord b r) = some (r.marshal c) := by
    intro r
    show ifAt _ _ _ _ = _
    rw [hp]
    exact if_pos rfl
  have hin : ∀ {p op}, op ∈ succeeded p none ((fresh fs todo).runIn db c sched).2 → op ∈ todo p := by
    intro p op ho
    rcases succeeded_mem ho with ho | ho
    · cases ho
    · exact called_runIn sched ho
  have hlen : ∀ {p op bs}, op ∈ todo p → addedTo db c (resolve db.cwd path) op = some bs → bs.length = 128 := by
    intro p op bs ho e
    rcases h p op ho with ⟨r, rfl⟩ | hl
    · rw [hadd] at e; rw [← Option.some.inj e]; exact r.marshal_length c
    · rw [leaves_added hl] at e; cases e
  obtain ⟨pieces, h1, h2, h3⟩ := C146_pieces db c (resolve db.cwd path) fs todo sched fun p op hop => (h p op hop).imp_left fun ⟨r, e⟩ => ⟨_, e ▸ hadd r⟩
  have h4 : ∀ p, partOf p (wholes pieces) = (succeeded p none ((fresh fs todo).runIn db c sched).2).filterMap (addedTo db c (resolve db.cwd path)) := by
    intro p
    obtain ⟨u, hu, _, he⟩ := h2 p
    rw [partOf_wholes, hu, he (hidle p), List.append_nil]
  have h5 : ∀ x ∈ pieces, x.whole = false → x.bytes = [] := by
    intro x hx hw
    obtain ⟨op, ho, bs, k, n, e1, e2, e3, e4⟩ := h3 x hx hw
    have := hlen ho e1
    rcases hroom _ _ _ e2 with rfl | hk
    · rw [e4, List.take_zero]
    · omega
  have hs : Sized 128 ((wholes pieces).map (·.2)) := by
    intro x hx
    obtain ⟨y, hy, rfl⟩ := List.mem_map.mp hx
    have := partOf_mem hy
    rw [h4] at this
    obtain ⟨op, ho, e⟩ := List.mem_filterMap.mp this
    exact hlen (hin ho) e
  refine ⟨(wholes pieces).map fun x => (x.1, FileHeader.parse c x.2), ?_, fun p => ?_⟩
  · unfold articlesIn
    rw [h1, flatten_wholes h5, slots_added (by omega) hd hs]
    simp
  · rw [partOf_map, h4, List.map_filterMap]
    refine filterMap_congr_mem fun op ho => ?_
    rcases h p op (hin ho) with ⟨r, rfl⟩ | hl
    · rw [hadd]
      simp [recordAdded, FileHeader.parse_marshal_exact]
    · rw [leaves_added hl]
      cases op with
      | addRecord b' r =>
        by_cases e : b' = b
        · subst e
          have := leaves_added (c := c) hl
          rw [hadd] at this
          cases this
        · simp [recordAdded, e]
      | _ => rfl

/-! ## What is false -/

/-- Client 0 and client 1 add the same record. -/
def twoAdd : Nat → List Call
  | 0 => [.addRecord (ascii "S") tornRecord]
  | 1 => [.addRecord (ascii "S") tornRecord]
  | _ => []

/-- There is room for one byte of what client 0 writes. -/
def twoSched : List (Nat × Nat × Option Nat) :=
  [(0, 0, none), (1, 0, none), (0, 0, none), (1, 0, none), (0, 0, some 1), (1, 0, none), (0, 0, none), (1, 0, none)]

/-- What client 1 was told, and the names in the list. -/
def twoEnd : Bool × List Bytes :=
  let s := (fresh sampleFS twoAdd).runIn sampleDB asciiCodec twoSched
  ((match succeeded 1 none s.2 with
    | [.addRecord b r] => decide (b = ascii "S" ∧ r = tornRecord)
    | _ => false), (articlesIn asciiCodec (bytesAt s.1.fs (resolve sampleDB.cwd (indexPath sampleDB.home (ascii "S"))))).map (·.filename))

theorem twoEnd_eq : twoEnd = (true, [ascii "MM.1.A.1", []]) := by decide +kernel

/-- A client that does not move is as it was. -/
theorem runIn_other {db : DB} {c : Codec} {q : Nat} : ∀ (sched : List (Nat × Nat × Option Nat)) {s : Site}, (∀ x ∈ sched, x.1 ≠ q) →
    (s.runIn db c sched).1.clients q = s.clients q
  | [], _, _ => rfl
  | (p, n, e) :: sched, s, h => by
    have hq : q ≠ p := Ne.symm (h _ (List.mem_cons_self ..))
    show ((s.stepIn db c p n e).1.runIn db c sched).1.clients q = _
    rw [runIn_other sched fun x hx => h x (List.mem_cons_of_mem _ hx)]
    unfold Site.stepIn
    split
    · rfl
    · exact if_neg hq
    · exact if_neg hq
    · exact if_neg hq

/-- **C146 is false of the code**: after one byte of the record of client 0 the record of client 1, which is told of success, is not in the list. -/
theorem C146_refuted : ¬ Spec.FullListed := by
  intro h
  have ht := twoEnd_eq
  have h1 := congrArg Prod.fst ht
  have h2 := congrArg Prod.snd ht
  simp only [twoEnd] at h1 h2
  have hmem : Call.addRecord (ascii "S") tornRecord ∈ succeeded 1 none ((fresh sampleFS twoAdd).runIn sampleDB asciiCodec twoSched).2 := by
    split at h1
    · next b r e =>
      obtain ⟨rfl, rfl⟩ := of_decide_eq_true h1
      rw [e]
      exact List.mem_singleton.mpr rfl
    · cases h1
  have := h sampleDB asciiCodec sampleFS (ascii "S") (indexPath sampleDB.home (ascii "S")) twoAdd twoSched rfl ⟨0, by decide +kernel⟩ (by
      intro p op hop
      match p, hop with
      | 0, hop => exact .inl ⟨_, List.mem_singleton.mp hop⟩
      | 1, hop => exact .inl ⟨_, List.mem_singleton.mp hop⟩
      | _ + 2, hop => cases hop) (by
      intro p
      match p with
      | 0 => exact Option.isNone_iff_eq_none.mp (by decide +kernel)
      | 1 => exact Option.isNone_iff_eq_none.mp (by decide +kernel)
      | q + 2 => rw [runIn_other twoSched (by simp [twoSched])]; rfl) 1 tornRecord hmem
  have h5 := List.mem_map_of_mem (f := (·.filename)) this
  rw [h2] at h5
  exact absurd h5 (by decide +kernel)

/-! ## Examples -/

/-- Three clients add to an article; one finds room for one byte of two, one for none, one for all. -/
def threeAdd : Nat → List Call
  | 0 => [.appendArticle (ascii "S") (ascii "M.1") (ascii "AB")]
  | 1 => [.appendArticle (ascii "S") (ascii "M.1") (ascii "CD")]
  | 2 => [.appendArticle (ascii "S") (ascii "M.1") (ascii "EF")]
  | _ => []

def threeEnd : Site × List Event := (fresh mixedFS threeAdd).runIn mixedDB mixedCodec
  [(0, 0, none), (1, 0, none), (2, 0, none), (0, 0, none), (1, 0, some 0), (2, 0, none), (0, 0, some 1), (1, 0, some 0), (2, 0, some 2), (0, 0, none),
    (1, 0, none), (2, 0, none)]

/-- The hypothesis of `C146_pieces`, `C146_text` and `C146_old` is met. -/
example : ∀ p, ∀ op ∈ threeAdd p, (∃ bs, addedTo mixedDB mixedCodec [ascii "bbs", ascii "boards", ascii "S", ascii "S", ascii "M.1"] op = some bs) ∨
    LeavesAlone mixedDB [ascii "bbs", ascii "boards", ascii "S", ascii "S", ascii "M.1"] op := by
  intro p op hop
  match p, hop with
  | 0, hop => rw [List.mem_singleton.mp hop]; exact .inl ⟨ascii "AB", by decide +kernel⟩
  | 1, hop => rw [List.mem_singleton.mp hop]; exact .inl ⟨ascii "CD", by decide +kernel⟩
  | 2, hop => rw [List.mem_singleton.mp hop]; exact .inl ⟨ascii "EF", by decide +kernel⟩
  | _ + 3, hop => cases hop

example : bytesAt threeEnd.1.fs [ascii "bbs", ascii "boards", ascii "S", ascii "S", ascii "M.1"] = ascii "helloAEF" := by decide +kernel
example : ((succeeded 0 none threeEnd.2).length, (succeeded 1 none threeEnd.2).length, (succeeded 2 none threeEnd.2).length) = (0, 0, 1) := by decide +kernel

/-- Non-vacuity of `C146_partial`: room for nothing at one `write` and for the whole record at another. -/
def roomySched : List (Nat × Nat × Option Nat) :=
  [(0, 0, none), (1, 0, none), (0, 0, none), (1, 0, none), (0, 0, some 0), (1, 0, some 128), (0, 0, none), (1, 0, none)]

example : (∀ p n k, (p, n, some k) ∈ roomySched → k = 0 ∨ 128 ≤ k) ∧
    (articlesIn asciiCodec (bytesAt ((fresh sampleFS twoAdd).runIn sampleDB asciiCodec roomySched).1.fs
      (resolve sampleDB.cwd (indexPath sampleDB.home (ascii "S"))))).map (·.filename) = [ascii "M.1.A.1"] := by
  refine ⟨fun p n k h => ?_, by decide +kernel⟩
  simp only [roomySched, List.mem_cons, Prod.mk.injEq, Option.some.injEq, reduceCtorEq, and_false, List.not_mem_nil, or_false, false_or] at h
  rcases h with ⟨_, _, rfl⟩ | ⟨_, _, rfl⟩
  · exact .inl rfl
  · exact .inr (Nat.le_refl _)

end Verif
