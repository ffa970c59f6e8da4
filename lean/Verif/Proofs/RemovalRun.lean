import Verif.Proofs.Removal
/-!
# Runs of the in-place removal
-/

namespace Verif
open Spec

/-! ## Helper lemmas -/

theorem removeStart_small (d : Bytes) (index : Int64) (h0 : 0 ≤ index.toInt) (h1 : index.toInt < 2 ^ 54) :
    removeStart (some d) index =
      .ok ⟨d, 256 * index.toInt.toNat + 256, 256 * index.toInt.toNat, [], .copying⟩ := by
  have e1 : (1 : Int64).toInt = 1 := by decide
  have e2 : (256 : Int64).toInt = 256 := by decide
  have ea : (index + 1).toInt = index.toInt + 1 := by
    rw [Int64.toInt_add, e1, Int.bmod_eq_of_le] <;> omega
  have er : ((index + 1) * 256).toInt = (index.toInt + 1) * 256 := by
    rw [Int64.toInt_mul, ea, e2, Int.bmod_eq_of_le] <;> omega
  have ew : (index * 256).toInt = index.toInt * 256 := by
    rw [Int64.toInt_mul, e2, Int.bmod_eq_of_le] <;> omega
  have n1 : ¬ (index + 1) * 256 < 0 := by rw [Int64.lt_iff_toInt_lt, er, Int64.toInt_zero]; omega
  have n2 : ¬ index * 256 < 0 := by rw [Int64.lt_iff_toInt_lt, ew, Int64.toInt_zero]; omega
  simp only [removeStart, if_neg n1, if_neg n2, er, ew]
  congr 2 <;> omega

theorem removeStart_negative (d : Bytes) (index : Int64) (h0 : -(2 ^ 54) ≤ index.toInt) (h1 : index.toInt < 0) :
    ∃ e, removeStart (some d) index = .err e := by
  have e2 : (256 : Int64).toInt = 256 := by decide
  have ew : (index * 256).toInt = index.toInt * 256 := by
    rw [Int64.toInt_mul, e2, Int.bmod_eq_of_le] <;> omega
  have n2 : index * 256 < 0 := by rw [Int64.lt_iff_toInt_lt, ew, Int64.toInt_zero]; omega
  simp only [removeStart, if_pos n2]
  split
  · exact ⟨_, rfl⟩
  · exact ⟨_, rfl⟩

theorem Spec.OnlyAppends.run {as : List RmAct} (h : OnlyAppends as) (s : RmState) :
    s.run as = some { s with file := s.file ++ appendedBy as } := by
  induction as generalizing s with
  | nil => simp [RmState.run, appendedBy]
  | cons a as ih =>
    obtain ⟨bs, rfl⟩ := h a (by simp)
    simp only [RmState.run, RmState.step, appendedBy]
    rw [ih (fun x hx => h x (by simp [hx]))]
    simp

theorem done_only_appends {as : List RmAct} : ∀ {s s' : RmState}, s.phase = .done → s.run as = some s' →
    OnlyAppends as := by
  induction as with
  | nil => intro s s' _ _ a ha; simp at ha
  | cons a as ih =>
    intro s s' hp hr
    simp only [RmState.run] at hr
    cases a with
    | read k => simp [RmState.step, hp] at hr
    | put => simp [RmState.step, hp] at hr
    | eof => simp [RmState.step, hp] at hr
    | trunc => simp [RmState.step, hp] at hr
    | append bs =>
      have := ih (s := { s with file := s.file ++ bs }) hp hr
      intro x hx
      rcases List.mem_cons.mp hx with rfl | hx
      · exact ⟨bs, rfl⟩
      · exact this x hx

/-- From the end-of-file read to the truncation only other processes can act. -/
theorem eof_split {as : List RmAct} : ∀ {s s' : RmState}, s.phase = .sawEOF → s.run as = some s' →
    (s'.phase = .sawEOF ∧ OnlyAppends as) ∨
    ∃ mid acts2, as = mid ++ .trunc :: acts2 ∧ OnlyAppends mid ∧ OnlyAppends acts2 := by
  induction as with
  | nil => intro s s' hp hr; injection hr with hr; subst hr; exact Or.inl ⟨hp, fun a ha => by simp at ha⟩
  | cons a as ih =>
    intro s s' hp hr
    simp only [RmState.run] at hr
    cases a with
    | read k => simp [RmState.step, hp] at hr
    | put => simp [RmState.step, hp] at hr
    | eof => simp [RmState.step, hp] at hr
    | trunc =>
      simp only [RmState.step, if_pos hp] at hr
      exact Or.inr ⟨[], as, rfl, fun a ha => by simp at ha, done_only_appends rfl hr⟩
    | append bs =>
      have hcons : ∀ {m : List RmAct}, OnlyAppends m → OnlyAppends (.append bs :: m) := by
        intro m hm x hx
        rcases List.mem_cons.mp hx with rfl | hx
        · exact ⟨bs, rfl⟩
        · exact hm x hx
      rcases ih (s := { s with file := s.file ++ bs }) hp hr with ⟨h1, h2⟩ | ⟨mid, acts2, h1, h2, h3⟩
      · exact Or.inl ⟨h1, hcons h2⟩
      · exact Or.inr ⟨.append bs :: mid, acts2, by rw [h1]; rfl, hcons h2, h3⟩

/-- A run from the copying phase stays there, or passes through the end-of-file read. -/
theorem copy_split {as : List RmAct} : ∀ {s s' : RmState}, s.phase = .copying → s.run as = some s' →
    s'.phase = .copying ∨ ∃ acts1 rest s1, as = acts1 ++ .eof :: rest ∧ s.run acts1 = some s1 ∧
      s1.phase = .copying ∧ s1.run (.eof :: rest) = some s' := by
  induction as with
  | nil => intro s s' hp hr; injection hr with hr; subst hr; exact Or.inl hp
  | cons a as ih =>
    intro s s' hp hr
    have hr0 := hr
    simp only [RmState.run] at hr
    cases hs : s.step a with
    | none => rw [hs] at hr; cases hr
    | some t =>
      rw [hs] at hr
      have next : t.phase = .copying → s'.phase = .copying ∨ ∃ acts1 rest s1, a :: as = acts1 ++ .eof :: rest ∧
          s.run acts1 = some s1 ∧ s1.phase = .copying ∧ s1.run (.eof :: rest) = some s' := by
        intro ht
        rcases ih ht hr with h | ⟨acts1, rest, s1, h1, h2, h3, h4⟩
        · exact Or.inl h
        · exact Or.inr ⟨a :: acts1, rest, s1, by rw [h1]; rfl, by simp only [RmState.run, hs]; exact h2, h3, h4⟩
      cases a with
      | eof => exact Or.inr ⟨[], as, s, rfl, rfl, hp, hr0⟩
      | read k =>
        apply next
        simp only [RmState.step] at hs
        split at hs
        · injection hs with hs; subst hs; exact hp
        · cases hs
      | put =>
        apply next
        simp only [RmState.step] at hs
        split at hs
        · injection hs with hs; subst hs; exact hp
        · cases hs
      | trunc =>
        simp only [RmState.step, hp] at hs
        cases hs
      | append bs => apply next; injection hs with hs; subst hs; exact hp

theorem truncateTo_append {f L : Bytes} {w : Nat} (h : w ≤ f.length) : truncateTo (f ++ L) w = truncateTo f w := by
  unfold truncateTo
  rw [List.take_append_of_le_length h, show w - (f ++ L).length = 0 by simp; omega, show w - f.length = 0 by omega]

/-- The whole story of a removal, at byte level: `acts1` before the end-of-file read, `mid` between it and the
truncation, `acts2` after. -/
theorem removal_result {d : Bytes} {w0 : Nat} (acts : List RmAct) (s' : RmState)
    (hr : ({ file := d, r := w0 + 256, w := w0, buf := [], phase := .copying } : RmState).run acts = some s')
    (hd : s'.phase = .done) :
    ∃ acts1 mid acts2, acts = acts1 ++ .eof :: (mid ++ .trunc :: acts2) ∧ OnlyAppends mid ∧ OnlyAppends acts2 ∧
      (w0 ≤ d.length ∨ mid = [] → s'.file = removedAt (d ++ appendedBy acts1) w0 ++ appendedBy acts2) := by
  rcases copy_split (by rfl) hr with h | ⟨acts1, rest, s1, h1, h2, h3, h4⟩
  · rw [hd] at h; cases h
  · have inv := (RmInv.start d w0).run rfl h2 h3
    simp only [RmState.run] at h4
    cases hs : s1.step .eof with
    | none => rw [hs] at h4; cases h4
    | some s2 =>
      rw [hs] at h4
      rcases inv.step h3 hs with ⟨hp, _⟩ | ⟨_, hp, inv2, hb, hlen⟩
      · simp only [RmState.step] at hs
        split at hs
        · injection hs with hs; subst hs; cases hp
        · cases hs
      · rcases eof_split hp h4 with ⟨h5, _⟩ | ⟨mid, acts2, h5, hm, ha2⟩
        · rw [hd] at h5; cases h5
        · refine ⟨acts1, mid, acts2, by rw [h1, h5], hm, ha2, ?_⟩
          intro hcase
          simp only [] at h4
          rw [h5, run_append, hm.run] at h4
          simp only [Option.bind_some, RmState.run, RmState.step, if_pos hp] at h4
          rw [ha2.run] at h4
          injection h4 with h4
          subst h4
          simp only []
          congr 1
          rcases hcase with hw | hmid
          · rw [truncateTo_append, inv2.removed hb hlen]
            have := inv2.hlen
            have hrr := inv2.hr
            rcases inv2.hend with ⟨e, _⟩ | e
            · rw [e, this]; simp; omega
            · omega
          · subst hmid
            simp only [appendedBy, List.append_nil]
            exact inv2.removed hb hlen

/-- The same for a given decomposition of the run. -/
theorem removal_result_of {d : Bytes} {w0 : Nat} (acts1 mid acts2 : List RmAct) (s' : RmState) (hm : OnlyAppends mid)
    (hr : (⟨d, w0 + 256, w0, [], .copying⟩ : RmState).run (acts1 ++ .eof :: (mid ++ .trunc :: acts2)) = some s') :
    s'.phase = .done ∧
      (w0 ≤ d.length ∨ mid = [] → s'.file = removedAt (d ++ appendedBy acts1) w0 ++ appendedBy acts2) := by
  rw [run_append] at hr
  obtain ⟨s1, h2, h4⟩ := Option.bind_eq_some_iff.mp hr
  simp only [RmState.run] at h4
  cases hs : s1.step .eof with
  | none => rw [hs] at h4; cases h4
  | some s2 =>
    rw [hs] at h4
    simp only [] at h4
    have h3 : s1.phase = .copying := by
      simp only [RmState.step] at hs
      split at hs
      · rename_i hc; exact hc.1
      · cases hs
    have inv := (RmInv.start d w0).run rfl h2 h3
    rcases inv.step h3 hs with ⟨hp, _⟩ | ⟨_, hp, inv2, hb, hlen⟩
    · simp only [RmState.step] at hs
      split at hs
      · injection hs with hs; subst hs; cases hp
      · cases hs
    · rw [run_append, hm.run] at h4
      simp only [Option.bind_some, RmState.run, RmState.step, if_pos hp] at h4
      have ha2 := done_only_appends (by rfl) h4
      rw [ha2.run] at h4
      injection h4 with h4
      subst h4
      refine ⟨rfl, ?_⟩
      intro hcase
      simp only []
      congr 1
      rcases hcase with hw | hmid
      · rw [truncateTo_append, inv2.removed hb hlen]
        have := inv2.hlen
        have hrr := inv2.hr
        rcases inv2.hend with ⟨e, _⟩ | e
        · rw [e, this]; simp; omega
        · omega
      · subst hmid
        simp only [appendedBy, List.append_nil]
        exact inv2.removed hb hlen

theorem flatten_take {size : Nat} {rs : List Bytes} (h : Sized size rs) (k : Nat) :
    (rs.take k).flatten = rs.flatten.take (size * k) := by
  have h1 : Sized size (rs.take k) := fun x hx => h x (List.mem_of_mem_take hx)
  have h2 := h1.flatten_length
  conv => rhs; rw [← List.take_append_drop k rs, List.flatten_append]
  by_cases hk : k ≤ rs.length
  · rw [List.length_take, Nat.min_eq_left hk] at h2
    rw [← h2, List.take_left]
  · have hle : size * rs.length ≤ size * k := Nat.mul_le_mul_left _ (by omega)
    have e : rs.drop k = [] := List.drop_eq_nil_of_le (by omega)
    rw [e, List.flatten_nil, List.append_nil, List.take_of_length_le (i := size * k)]
    rw [h2, List.length_take]
    exact Nat.le_trans (Nat.mul_le_mul_left _ (Nat.min_le_right _ _)) hle

theorem flatten_drop {size : Nat} {rs : List Bytes} (h : Sized size rs) (k : Nat) :
    (rs.drop k).flatten = rs.flatten.drop (size * k) := by
  have h1 := flatten_take h k
  have h2 : rs.flatten = (rs.take k).flatten ++ (rs.drop k).flatten := by
    rw [← List.flatten_append, List.take_append_drop]
  have h3 : rs.flatten = rs.flatten.take (size * k) ++ rs.flatten.drop (size * k) := (List.take_append_drop _ _).symm
  rw [h1] at h2
  exact List.append_cancel_left (h2.symm.trans h3)

theorem removedAt_records {rs : List Bytes} (h : Sized 256 rs) {i : Nat} (hi : i < rs.length) (A : Bytes) :
    removedAt (rs.flatten ++ A) (256 * i) = (rs.eraseIdx i).flatten ++ A := by
  have hl := h.flatten_length
  unfold removedAt truncateTo
  rw [List.eraseIdx_eq_take_drop_succ, List.flatten_append, flatten_take h, flatten_drop h,
    List.take_append_of_le_length (by omega), List.drop_append_of_le_length (by omega)]
  have z : 256 * i - (rs.flatten ++ A).length = 0 := by simp only [List.length_append]; omega
  rw [z]
  simp [zeros, Nat.mul_add]

theorem Spec.Alone.appendedBy {acts : List RmAct} (h : Alone acts) : appendedBy acts = [] := by
  induction acts with
  | nil => rfl
  | cons a as ih =>
    have ih' := ih (fun x hx => h x (by simp [hx]))
    cases a with
    | append bs => exact absurd rfl (h _ (by simp) bs)
    | read k => simpa [Spec.appendedBy] using ih'
    | put => simpa [Spec.appendedBy] using ih'
    | eof => simpa [Spec.appendedBy] using ih'
    | trunc => simpa [Spec.appendedBy] using ih'

theorem Spec.Alone.of_append {as bs : List RmAct} (h : Alone (as ++ bs)) : Alone as ∧ Alone bs :=
  ⟨fun x hx => h x (by simp [hx]), fun x hx => h x (by simp [hx])⟩

theorem Spec.OnlyAppends.nil_of_alone {as : List RmAct} (h : OnlyAppends as) (h' : Alone as) : as = [] := by
  cases as with
  | nil => rfl
  | cons a as =>
    obtain ⟨bs, e⟩ := h a (by simp)
    exact absurd e (h' a (by simp) bs)

/-- Undisturbed removal, at byte level and for every start offset. -/
theorem removal_alone {d : Bytes} {w0 : Nat} (acts : List RmAct) (ha : Alone acts) (s' : RmState)
    (hr : ({ file := d, r := w0 + 256, w := w0, buf := [], phase := .copying } : RmState).run acts = some s')
    (hd : s'.phase = .done) : s'.file = removedAt d w0 := by
  obtain ⟨acts1, mid, acts2, h1, h2, h3, h4⟩ := removal_result acts s' hr hd
  rw [h1] at ha
  obtain ⟨a1, a2⟩ := Alone.of_append ha
  have a3 : Alone (mid ++ .trunc :: acts2) := fun x hx => a2 x (List.mem_cons_of_mem _ hx)
  have m0 := h2.nil_of_alone (Alone.of_append a3).1
  have a4 : Alone acts2 := fun x hx => (Alone.of_append a3).2 x (by simp [hx])
  have := h4 (Or.inr m0)
  rw [a1.appendedBy, a4.appendedBy] at this
  simpa using this

/-! ## Progress -/

theorem Spec.Alone.append {as bs : List RmAct} (h : Alone as) (h' : Alone bs) : Alone (as ++ bs) := by
  intro x hx
  rcases List.mem_append.mp hx with hx | hx
  · exact h x hx
  · exact h' x hx

/-- Write out the buffer. -/
theorem flush (n : Nat) : ∀ s : RmState, s.phase = .copying → s.buf.length = n →
    ∃ acts s', Alone acts ∧ s.run acts = some s' ∧ s'.phase = .copying ∧ s'.buf = [] ∧ s'.r = s.r := by
  induction n with
  | zero =>
    intro s hp hb
    exact ⟨[], s, fun a ha => by simp at ha, rfl, hp, by simpa using hb, rfl⟩
  | succ n ih =>
    intro s hp hb
    cases hbuf : s.buf with
    | nil => rw [hbuf] at hb; simp at hb
    | cons b bs =>
      rw [hbuf] at hb
      have hst : s.step .put = some ⟨writeAt s.file s.w [b], s.r, s.w + 1, bs, .copying⟩ := by
        simp [RmState.step, hp, hbuf]
      obtain ⟨acts, s', h1, h2, h3, h4, h5⟩ := ih ⟨writeAt s.file s.w [b], s.r, s.w + 1, bs, .copying⟩ rfl
        (by simpa using hb)
      refine ⟨.put :: acts, s', ?_, ?_, h3, h4, h5⟩
      · intro x hx bs'
        rcases List.mem_cons.mp hx with rfl | hx
        · simp
        · exact h1 x hx bs'
      · simp only [RmState.run, hst]
        exact h2

theorem finish_eof (s : RmState) (hp : s.phase = .sawEOF) :
    ∃ acts s', Alone acts ∧ s.run acts = some s' ∧ s'.phase = .done :=
  ⟨[.trunc], _, by simp [Alone], by simp [RmState.run, RmState.step, hp]; rfl, rfl⟩

theorem finish_at_end (s : RmState) (hp : s.phase = .copying) (hb : s.buf = []) (hr : s.file.length ≤ s.r) :
    ∃ acts s', Alone acts ∧ s.run acts = some s' ∧ s'.phase = .done :=
  ⟨[.eof, .trunc], _, by simp [Alone], by simp [RmState.run, RmState.step, hp, hb, hr]; rfl, rfl⟩

theorem finish {d : Bytes} {w0 : Nat} (s : RmState) (h : RmInv d w0 s) (hp : s.phase = .copying) :
    ∃ acts s', Alone acts ∧ s.run acts = some s' ∧ s'.phase = .done := by
  obtain ⟨a1, s1, p1, r1, c1, b1, e1⟩ := flush _ s hp rfl
  have i1 := h.run hp r1 c1
  rw [p1.appendedBy, List.append_nil] at i1
  by_cases hr : s1.file.length ≤ s1.r
  · obtain ⟨a2, s2, p2, r2, c2⟩ := finish_at_end s1 c1 b1 hr
    exact ⟨a1 ++ a2, s2, p1.append p2, by rw [run_append, r1]; exact r2, c2⟩
  · let k := s1.file.length - s1.r
    have hst : s1.step (.read k) =
        some { s1 with buf := slice s1.file s1.r (s1.r + k), r := s1.r + k } := by
      simp only [RmState.step]
      rw [if_pos ⟨c1, b1, by omega, by omega⟩]
    obtain ⟨a2, s2, p2, r2, c2, b2, e2⟩ := flush _ { s1 with buf := slice s1.file s1.r (s1.r + k), r := s1.r + k } c1 rfl
    have r12 : s.run (a1 ++ .read k :: a2) = some s2 := by
      rw [run_append, r1]
      simp only [Option.bind_some, RmState.run, hst]
      exact r2
    have p12 : Alone (a1 ++ .read k :: a2) := p1.append (by
      intro x hx bs
      rcases List.mem_cons.mp hx with rfl | hx
      · simp
      · exact p2 x hx bs)
    have i2 := h.run hp r12 c2
    rw [p12.appendedBy, List.append_nil] at i2
    have l1 := i1.hlen
    have l2 := i2.hlen
    obtain ⟨a3, s3, p3, r3, c3⟩ := finish_at_end s2 c2 b2 (by simp only [] at e2; omega)
    exact ⟨_, s3, p12.append p3, by rw [run_append, r12]; exact r3, c3⟩

/-! ## Bounded number of system calls -/

/-- Rank of the phase. -/
def RmPhase.rank : RmPhase → Nat | .copying => 0 | .sawEOF => 1 | .done => 2

/-- Positions stay inside the file and every own system call makes progress. -/
theorem alone_bound {len : Nat} {acts : List RmAct} (ha : Alone acts) : ∀ s s' : RmState,
    s.w + 256 + s.buf.length = s.r → s.r ≤ len → (s.phase = .copying → s.file.length = len) →
    s.run acts = some s' →
    s'.w + 256 + s'.buf.length = s'.r ∧ s'.r ≤ len ∧ (s'.phase = .copying → s'.file.length = len) ∧
      acts.length + s.r + s.w + s.phase.rank ≤ s'.r + s'.w + s'.phase.rank := by
  induction acts with
  | nil => intro s s' h1 h2 h3 hr; injection hr with hr; subst hr; exact ⟨h1, h2, h3, by simp⟩
  | cons a as ih =>
    intro s s' h1 h2 h3 hr
    simp only [RmState.run] at hr
    have ih' := ih (fun x hx => ha x (by simp [hx]))
    cases a with
    | append bs => exact absurd rfl (ha _ (by simp) bs)
    | read k =>
      simp only [RmState.step] at hr
      by_cases hc : s.phase = .copying ∧ s.buf = [] ∧ 0 < k ∧ s.r + k ≤ s.file.length
      · rw [if_pos hc] at hr
        have hl := h3 hc.1
        have := ih' ({ s with buf := slice s.file s.r (s.r + k), r := s.r + k }) s'
          (by rw [hc.2.1] at h1; simp only [slice_length, Nat.min_eq_left hc.2.2.2, List.length_nil] at h1 ⊢; omega)
          (by simp only []; omega) h3 hr
        refine ⟨this.1, this.2.1, this.2.2.1, ?_⟩
        have h4 := this.2.2.2
        simp only [List.length_cons] at h4 ⊢
        omega
      · rw [if_neg hc] at hr; cases hr
    | put =>
      simp only [RmState.step] at hr
      cases hp : s.phase with
      | sawEOF => rw [hp] at hr; cases hr
      | done => rw [hp] at hr; cases hr
      | copying =>
        cases hb : s.buf with
        | nil => rw [hp, hb] at hr; cases hr
        | cons b bs =>
          rw [hp, hb] at hr
          have hl := h3 hp
          rw [hb] at h1
          simp only [List.length_cons] at h1
          have hw : s.w < s.file.length := by omega
          · have := ih' (⟨writeAt s.file s.w [b], s.r, s.w + 1, bs, .copying⟩) s' (by simp only []; omega) h2
              (fun _ => by simp only []; rw [writeAt_byte_length hw]; exact hl) hr
            refine ⟨this.1, this.2.1, this.2.2.1, ?_⟩
            have h4 := this.2.2.2
            simp only [List.length_cons, RmPhase.rank] at h4 ⊢
            omega
    | eof =>
      simp only [RmState.step] at hr
      by_cases hc : s.phase = .copying ∧ s.buf = [] ∧ s.file.length ≤ s.r
      · rw [if_pos hc] at hr
        have := ih' ({ s with phase := .sawEOF }) s' h1 h2 (by simp) hr
        refine ⟨this.1, this.2.1, this.2.2.1, ?_⟩
        have h4 := this.2.2.2
        simp only [List.length_cons, RmPhase.rank, hc.1] at h4 ⊢
        omega
      · rw [if_neg hc] at hr; cases hr
    | trunc =>
      simp only [RmState.step] at hr
      by_cases hc : s.phase = .sawEOF
      · rw [if_pos hc] at hr
        have := ih' ({ s with file := truncateTo s.file s.w, phase := .done }) s' h1 h2 (by simp) hr
        refine ⟨this.1, this.2.1, this.2.2.1, ?_⟩
        have h4 := this.2.2.2
        simp only [List.length_cons, RmPhase.rank, hc] at h4 ⊢
        omega
      · rw [if_neg hc] at hr; cases hr

end Verif
