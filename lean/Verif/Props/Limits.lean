import Verif.Model.Limits
import Verif.Props.Alone
import Verif.Props.Refusal
import Verif.Proofs.Paths
/-!
# C143: names of any length

`Verif.Go.FS` has no limits on names. Here is when that does not matter, and what happens otherwise.
-/

namespace Verif
open Spec

/-! ## Names that fit -/

/-- A path within the limits. -/
def Spec.NameFits (p : Bytes) : Prop := p.length < 4096 ∧ ∀ x ∈ splitByte slash p, x.length ≤ 255

instance (p : Bytes) : Decidable (NameFits p) := by unfold NameFits; infer_instance

theorem reachesLong_false (fs : FS) : ∀ (cs : List Bytes) (cur : Path), (∀ x ∈ cs, x.length ≤ 255) → fs.reachesLong cur cs = false
  | [], _, _ => rfl
  | x :: cs, cur, h => by
    unfold FS.reachesLong
    split
    · rw [reachesLong_false fs cs _ fun y hy => h y (List.mem_cons_of_mem _ hy), Bool.or_false, decide_eq_false_iff_not]
      have := h x (List.mem_cons_self ..)
      omega
    · rfl

theorem tooLong_of_fits (fs : FS) (cwd : Path) {p : Bytes} (h : NameFits p) : fs.tooLong cwd p = false := by
  unfold FS.tooLong
  have h1 : ¬ 4096 ≤ p.length := Nat.not_le.mpr h.1
  rw [reachesLong_false fs _ _ h.2, Bool.or_false, decide_eq_false h1, Bool.and_false]

/-- Every path that the job may come to fits. -/
def Spec.AllFit : Job → Prop
  | .done _ => True
  | .stat p k => NameFits p ∧ ∀ b, AllFit (k b)
  | .openRead p k => NameFits p ∧ ∀ r, AllFit (k r)
  | .openWrite p k => NameFits p ∧ ∀ r, AllFit (k r)
  | .openMake p k => NameFits p ∧ ∀ r, AllFit (k r)
  | .openTrunc p k => NameFits p ∧ ∀ r, AllFit (k r)
  | .openExcl p k => NameFits p ∧ ∀ b, AllFit (k b)
  | .read _ _ _ _ k => ∀ r, AllFit (k r)
  | .append _ _ k => AllFit k
  | .put _ _ k => AllFit k
  | .unlink p k => NameFits p ∧ ∀ r, AllFit (k r)

theorem allFit_step {j : Job} (h : AllFit j) (cwd : Path) (fs : FS) (n : Nat) : AllFit (j.step cwd fs n).2 := by
  cases j with
  | done r => trivial
  | stat p k => exact h.2 _
  | openRead p k => exact h.2 _
  | openWrite p k => exact h.2 _
  | openMake p k => simp only [Job.step]; split <;> exact h.2 _
  | openTrunc p k => simp only [Job.step]; split <;> exact h.2 _
  | openExcl p k => simp only [Job.step]; split <;> exact h.2 _
  | read l size got pos k =>
    simp only [Job.step]
    split
    · split
      · exact h
      · exact h _
    · split
      · exact h _
      · exact h
    · exact h _
  | append l bs k => simp only [Job.step]; split <;> exact h
  | put l bs k => simp only [Job.step]; split <;> exact h
  | unlink p k => simp only [Job.step]; split <;> exact h.2 _

theorem allFit_limit {j : Job} (h : AllFit j) (cwd : Path) (fs : FS) : j.limit cwd fs = none := by
  cases j <;> first | rfl | (unfold Job.limit Job.path?; simp only [tooLong_of_fits fs cwd h.1]; rfl)

theorem allFit_limited {j : Job} (h : AllFit j) (cwd : Path) (fs : FS) (n : Nat) : j.stepLimited cwd fs n = j.step cwd fs n := by
  unfold Job.stepLimited
  rw [allFit_limit h]
  rfl

theorem allFit_play (cwd : Path) : ∀ (ns : List Nat) (fs : FS) {j : Job}, AllFit j → Job.playLimited cwd ns fs j = Job.play cwd ns fs j
  | [], _, _, _ => rfl
  | n :: ns, fs, j, h => by
    unfold Job.playLimited Job.play
    rw [allFit_limited h]
    exact allFit_play cwd ns _ (allFit_step h cwd fs n)

/-! ## The paths of a call -/

/-- `p` is a path that the call may give to the system. -/
def Spec.PathOf (db : DB) (p : Bytes) : Call → Prop
  | .readUsers => getPasswdsPath db.home = .ok p
  | .readFavourites u => getUserFavoritePath db.home u = .ok p ∨ getBoardPath db.home = .ok p
  | .readBoards => getBoardPath db.home = .ok p
  | .listArticles b => getBoardArticlesDirectoryPath db.home b = .ok p
  | .listTreasure b ds => getBoardTreasuresDirectoryPath db.home b ds = .ok p
  | .readArticle b f => getBoardArticleFilePath db.home b f = .ok p
  | .readTreasure b ds f => getBoardTreasureFilePath db.home b ds f = .ok p
  | .addBoard _ => getBoardPath db.home = .ok p
  | .createArticle b _ _ _ draw _ => ∃ k, getBoardArticleFilePath db.home b (DB.articleName (draw k).1 (draw k).2) = .ok p
  | .addRecord b _ => getBoardArticlesDirectoryPath db.home b = .ok p
  | .writeArticle b f _ => getBoardArticleFilePath db.home b f = .ok p
  | .appendArticle b f _ => getBoardArticleFilePath db.home b f = .ok p
  | .readDraft u d => getUserDraftPath db.home u d = .ok p
  | .deleteDraft u d => getUserDraftPath db.home u d = .ok p
  | .writeDraft u d _ => getUserDraftPath db.home u d = .ok p

/-- All the paths of the call fit. -/
def Spec.CallFits (db : DB) (op : Call) : Prop := ∀ p, PathOf db p op → NameFits p

theorem allFit_orStop {α : Type} {k : α → Job} {r : Res α} (h : ∀ a, r = .ok a → AllFit (k a)) : AllFit (Job.orStop k r) := by
  cases r with
  | ok a => exact h a rfl
  | err e => trivial
  | panic => trivial
  | diverge => trivial

theorem allFit_readList {α : Type} {p : Bytes} {size : Nat} {parse : Bytes → Res α} {k : List α → Job} (hp : NameFits p) (hk : ∀ l, AllFit (k l)) :
    AllFit (Job.readList p size parse k) :=
  ⟨hp, fun _ => allFit_orStop fun _ _ _ => allFit_orStop fun _ _ => allFit_orStop fun _ _ => hk _⟩

theorem allFit_readWhole {p : Bytes} {k : Bytes → Job} (hp : NameFits p) (hk : ∀ x, AllFit (k x)) : AllFit (Job.readWhole p k) :=
  ⟨hp, fun _ => allFit_orStop fun _ _ _ => allFit_orStop fun _ _ => hk _⟩

theorem allFit_tryNames {db : DB} {b o d t : Bytes} {draw : Nat → Int × Fin 4096}
    (h : ∀ k p, getBoardArticleFilePath db.home b (DB.articleName (draw k).1 (draw k).2) = .ok p → NameFits p) :
    ∀ fuel k, AllFit (Job.tryNames db b o d t draw fuel k)
  | 0, _ => trivial
  | fuel + 1, k => by
    unfold Job.tryNames
    refine allFit_orStop fun p hp => ⟨h k p hp, fun r => ?_⟩
    cases r with
    | true => trivial
    | false => exact allFit_tryNames h fuel (k + 1)

theorem allFit_start (db : DB) (c : Codec) {op : Call} (h : CallFits db op) : AllFit (Job.start db c op) := by
  cases op with
  | readUsers => unfold Job.start; exact allFit_orStop fun p hp => allFit_readList (h p hp) fun _ => trivial
  | readFavourites u =>
    refine allFit_orStop fun p hp => ⟨h p (.inl hp), fun r => ?_⟩
    cases r with
    | false => trivial
    | true =>
      exact allFit_readWhole (h p (.inl hp)) fun _ => allFit_orStop fun _ _ => allFit_orStop fun q hq =>
        allFit_readList (h q (.inr hq)) fun _ => allFit_orStop fun _ _ => trivial
  | readBoards => unfold Job.start; exact allFit_orStop fun p hp => allFit_readList (h p hp) fun _ => trivial
  | listArticles b =>
    refine allFit_orStop fun p hp => ⟨h p hp, fun r => ?_⟩
    cases r with
    | err e => trivial
    | ok l => exact fun _ => allFit_orStop fun _ _ => allFit_orStop fun _ _ => trivial
    | panic => trivial
    | diverge => trivial
  | listTreasure b ds => exact allFit_orStop fun p hp => allFit_readList (h p hp) fun _ => trivial
  | readArticle b f => exact allFit_orStop fun p hp => allFit_readWhole (h p hp) fun _ => trivial
  | readTreasure b ds f => exact allFit_orStop fun p hp => allFit_readWhole (h p hp) fun _ => trivial
  | addBoard r => unfold Job.start; exact allFit_orStop fun p hp => ⟨h p hp, fun _ => allFit_orStop fun _ _ => trivial⟩
  | createArticle b o d t draw fuel => exact allFit_tryNames (fun k p hp => h p ⟨k, hp⟩) fuel 0
  | addRecord b r => exact allFit_orStop fun p hp => ⟨h p hp, fun _ => allFit_orStop fun _ _ => trivial⟩
  | writeArticle b f x => exact allFit_orStop fun p hp => ⟨h p hp, fun _ => allFit_orStop fun _ _ => trivial⟩
  | appendArticle b f x => exact allFit_orStop fun p hp => ⟨h p hp, fun _ => allFit_orStop fun _ _ => trivial⟩
  | readDraft u d =>
    refine allFit_orStop fun p hp => ⟨h p hp, fun r => ?_⟩
    cases r with
    | false => trivial
    | true => exact allFit_readWhole (h p hp) fun _ => trivial
  | deleteDraft u d => exact allFit_orStop fun p hp => ⟨h p hp, fun _ => allFit_orStop fun _ _ => trivial⟩
  | writeDraft u d x => exact allFit_orStop fun p hp => ⟨h p hp, fun _ => allFit_orStop fun _ _ => trivial⟩

/-- **C143**, names that fit: the limits do not show, whatever the disk and however much a read asks for. -/
theorem C143_fits (db : DB) (c : Codec) (op : Call) (h : CallFits db op) (fs : FS) (ns : List Nat) :
    Job.playLimited db.cwd ns fs (Job.start db c op) = Job.play db.cwd ns fs (Job.start db c op) :=
  allFit_play db.cwd ns fs (allFit_start db c h)

/-- A client all of whose paths fit, those of the call it is making included. -/
def Spec.ClientFits (db : DB) (x : Client) : Prop := (∀ op ∈ x.todo, CallFits db op) ∧ ∀ j, x.now = some j → AllFit j

theorem clientFits_set {db : DB} {s : Site} (h : ∀ q, ClientFits db (s.clients q)) (fs : FS) (p : Nat) {x : Client} (hx : ClientFits db x) :
    ∀ q, ClientFits db ((s.setClient fs p x).clients q) := by
  intro q
  unfold Site.setClient
  simp only
  split
  · exact hx
  · exact h q

theorem stepLimited_eq {db : DB} {c : Codec} {s : Site} (h : ∀ q, ClientFits db (s.clients q)) (p n : Nat) :
    s.stepLimited db c p n = s.step db c p n ∧ ∀ q, ClientFits db ((s.step db c p n).1.clients q) := by
  have hp := h p
  unfold Site.stepLimited Site.step
  cases hx : s.clients p with
  | mk todo now =>
    rw [hx] at hp
    cases now with
    | none =>
      cases todo with
      | nil => exact ⟨rfl, h⟩
      | cons op rest =>
        refine ⟨rfl, clientFits_set h _ _ ⟨fun o ho => hp.1 o (List.mem_cons_of_mem _ ho), fun j hj => ?_⟩⟩
        cases hj
        exact allFit_start db c (hp.1 op (List.mem_cons_self ..))
    | some j =>
      have hj := hp.2 j rfl
      cases j with
      | done r => exact ⟨by cases todo <;> rfl, by cases todo <;> exact clientFits_set h _ _ ⟨hp.1, fun j hj => by cases hj⟩⟩
      | _ =>
        have e := allFit_limited hj db.cwd s.fs n
        have f := allFit_step hj db.cwd s.fs n
        cases todo <;> simp only [e] <;> exact ⟨trivial, clientFits_set h _ _ ⟨hp.1, fun j hj => by cases hj; exact f⟩⟩

/-- **C143**, several clients: if their names fit, every run is a run without limits. So what is proved about those holds here. -/
theorem C143_clients (db : DB) (c : Codec) : ∀ (sched : List (Nat × Nat)) (s : Site), (∀ q, ClientFits db (s.clients q)) →
    s.runLimited db c sched = s.run db c sched
  | [], _, _ => rfl
  | (p, n) :: sched, s, h => by
    obtain ⟨h1, h2⟩ := stepLimited_eq (c := c) h p n
    unfold Site.runLimited Site.run
    rw [h1]
    simp only
    rw [C143_clients db c sched _ h2]

/-! ## Names of ordinary length fit -/

/-- The bytes of a list of components with a separator after each. -/
def weight (cs : List Bytes) : Nat := (cs.map fun x => x.length + 1).sum

theorem weight_append (a b : List Bytes) : weight (a ++ b) = weight a + weight b := by simp [weight]
theorem weight_cons (x : Bytes) (a : List Bytes) : weight (x :: a) = x.length + 1 + weight a := by simp [weight]

theorem weight_split (b : UInt8) (s : Bytes) : weight (splitByte b s) = s.length + 1 := by
  induction s with
  | nil => rfl
  | cons c cs ih =>
    simp only [splitByte]
    split
    · rw [weight_cons, ih]; simp; omega
    · split
      · next h => exact absurd h (splitByte_ne_nil b cs)
      · next h t e => rw [e, weight_cons] at ih; rw [weight_cons]; simp; omega

theorem le_weight {x : Bytes} {cs : List Bytes} (h : x ∈ cs) : x.length + 1 ≤ weight cs := by
  induction cs with
  | nil => cases h
  | cons y cs ih =>
    rw [weight_cons]
    rcases List.mem_cons.mp h with rfl | h
    · omega
    · have := ih h; omega

theorem split_short {b : UInt8} {s x : Bytes} (h : x ∈ splitByte b s) : x.length ≤ s.length := by
  have := le_weight h
  rw [weight_split] at this
  omega

theorem weight_dirs (ds : List Bytes) : weight (ds.map (splitByte slash)).flatten = weight ds := by
  induction ds with
  | nil => rfl
  | cons d ds ih => rw [List.map_cons, List.flatten_cons, weight_append, weight_split, ih, weight_cons]

theorem fmtC_short (b : UInt8) : (fmtC b).length ≤ 2 := by
  rcases fmtC_spec b with ⟨h, _⟩ | ⟨x, y, h, _⟩ <;> rw [h] <;> simp

/-- Names of at most 255 bytes, and a home directory with room for them. -/
def Spec.ShortObj : Obj → Prop
  | .passwd => True
  | .boardList => True
  | .favourite u => u.length ≤ 255
  | .draft u d => u.length ≤ 255 ∧ d.length ≤ 251
  | .mail u f => u.length ≤ 255 ∧ f.length ≤ 255
  | .loginRecent u => u.length ≤ 255
  | .articleIndex b => b.length ≤ 255
  | .article b f => b.length ≤ 255 ∧ f.length ≤ 255
  | .treasureIndex b ds => b.length ≤ 255 ∧ (∀ d ∈ ds, d.length ≤ 255) ∧ (ds.map fun d => d.length + 1).sum ≤ 1024
  | .treasure b ds f => b.length ≤ 255 ∧ (∀ d ∈ ds, d.length ≤ 255) ∧ (ds.map fun d => d.length + 1).sum ≤ 1024 ∧ f.length ≤ 255
  | .boardName b => b.length ≤ 255

/-- A home directory that leaves room. -/
def Spec.RoomyHome (home : Bytes) : Prop := home.length ≤ 2048 ∧ ∀ x ∈ splitByte slash home, x.length ≤ 255

theorem pieces_short {o : Obj} (h : ShortObj o) : weight o.pieces ≤ 1800 ∧ ∀ x ∈ o.pieces, x.length ≤ 255 := by
  have l1 : (ascii "home").length = 4 := by decide
  have l2 : (ascii "boards").length = 6 := by decide
  have l3 : (ascii "man").length = 3 := by decide
  have l4 : (ascii ".fav").length = 4 := by decide
  have l5 : (ascii "buf.").length = 4 := by decide
  have l6 : (ascii "logins.recent").length = 13 := by decide
  have l7 : (ascii ".DIR").length = 4 := by decide
  have l8 : (ascii ".Name").length = 5 := by decide
  have l9 : (ascii ".PASSWDS").length = 8 := by decide
  have l10 : (ascii ".BRD").length = 4 := by decide
  have hf := fmtC_short
  have w0 : weight [] = 0 := rfl
  have key : ∀ {s x : Bytes}, s.length ≤ 255 → x ∈ splitByte slash s → x.length ≤ 255 := fun h1 h2 => Nat.le_trans (split_short h2) h1
  have lett : ∀ {u x : Bytes}, u.length ≤ 255 → x ∈ splitByte slash (fmtC (u.headD 0)) ∨ x ∈ splitByte slash u → x.length ≤ 255 := by
    intro u x hu hx
    exact hx.elim (key (Nat.le_trans (hf _) (by decide))) (key hu)
  have dirs : ∀ {ds : List Bytes} {x : Bytes}, (∀ d ∈ ds, d.length ≤ 255) → (∃ l, (∃ a ∈ ds, splitByte slash a = l) ∧ x ∈ l) → x.length ≤ 255 := by
    rintro ds x hd ⟨_, ⟨a, ha, rfl⟩, hx⟩
    exact key (hd a ha) hx
  cases o <;> simp only [ShortObj] at h <;> refine ⟨?_, ?_⟩ <;>
    simp only [Obj.pieces, weight_append, weight_cons, weight_split, weight_dirs, w0, List.length_append, List.mem_append, List.mem_cons,
      List.not_mem_nil, or_false, List.mem_flatten, List.mem_map]
  case passwd.refine_1 => omega
  case boardList.refine_1 => omega
  case favourite.refine_1 u => have := hf (u.headD 0); omega
  case draft.refine_1 u d => have := hf (u.headD 0); omega
  case mail.refine_1 u f => have := hf (u.headD 0); omega
  case loginRecent.refine_1 u => have := hf (u.headD 0); omega
  case articleIndex.refine_1 u => have := hf (u.headD 0); omega
  case article.refine_1 u f => have := hf (u.headD 0); omega
  case treasureIndex.refine_1 u ds => have := hf (u.headD 0); have : weight ds ≤ 1024 := h.2.2; omega
  case treasure.refine_1 u ds f => have := hf (u.headD 0); have : weight ds ≤ 1024 := h.2.2.1; omega
  case boardName.refine_1 u => have := hf (u.headD 0); omega
  case passwd.refine_2 => rintro x rfl; decide
  case boardList.refine_2 => rintro x rfl; decide
  case favourite.refine_2 => rintro x (rfl | hx | rfl); exact (by decide); exact lett h hx; decide
  case draft.refine_2 => rintro x (rfl | hx | hx); decide; exact lett h.1 hx; exact key (by rw [List.length_append, l5]; omega) hx
  case mail.refine_2 => rintro x (rfl | hx | hx); decide; exact lett h.1 hx; exact key h.2 hx
  case loginRecent.refine_2 => rintro x (rfl | hx | rfl); decide; exact lett h hx; decide
  case articleIndex.refine_2 => rintro x (rfl | hx | rfl); decide; exact lett h hx; decide
  case article.refine_2 => rintro x (rfl | hx | hx); decide; exact lett h.1 hx; exact key h.2 hx
  case treasureIndex.refine_2 =>
    rintro x (rfl | rfl | hx | hx | rfl); decide; decide; exact lett h.1 hx; exact dirs h.2.1 hx; decide
  case treasure.refine_2 =>
    rintro x (rfl | rfl | hx | hx | hx); decide; decide; exact lett h.1 hx; exact dirs h.2.1 hx; exact key h.2.2.2 hx
  case boardName.refine_2 => rintro x (rfl | hx | rfl); decide; exact lett h hx; decide

theorem fits_obj {home : Bytes} (hh : RoomyHome home) {o : Obj} (ho : ShortObj o) {p : Bytes} (hp : o.path home = .ok p) : NameFits p := by
  have hne : o.owner ≠ some [] := by
    intro e
    cases o <;> simp only [Obj.owner, Option.some.injEq, reduceCtorEq] at e <;> subst e <;> cases hp
  obtain ⟨rest, h1, h2⟩ := Obj.path_eq home o hne
  rw [hp] at h1
  cases h1
  obtain ⟨h3, h4⟩ := pieces_short ho
  rw [← h2] at h3 h4
  rw [weight_split] at h3
  refine ⟨?_, fun x hx => ?_⟩
  · have := hh.1
    simp only [List.length_append, List.length_cons]
    omega
  · rw [splitByte_sep, List.mem_append] at hx
    exact hx.elim (hh.2 x) (h4 x)

/-- A call with names of at most 255 bytes. -/
def Spec.ShortCall : Call → Prop
  | .readUsers => True
  | .readFavourites u => ShortObj (.favourite u)
  | .readBoards => True
  | .listArticles b => ShortObj (.articleIndex b)
  | .listTreasure b ds => ShortObj (.treasureIndex b ds)
  | .readArticle b f => ShortObj (.article b f)
  | .readTreasure b ds f => ShortObj (.treasure b ds f)
  | .addBoard _ => True
  | .createArticle b _ _ _ draw _ => b.length ≤ 255 ∧ ∀ k, -2 ^ 63 ≤ (draw k).1 ∧ (draw k).1 < 2 ^ 63
  | .addRecord b _ => ShortObj (.articleIndex b)
  | .writeArticle b f _ => ShortObj (.article b f)
  | .appendArticle b f _ => ShortObj (.article b f)
  | .readDraft u d => ShortObj (.draft u d)
  | .deleteDraft u d => ShortObj (.draft u d)
  | .writeDraft u d _ => ShortObj (.draft u d)

theorem fits_short {db : DB} (hh : RoomyHome db.home) {op : Call} (h : ShortCall op) : CallFits db op := by
  intro p hp
  cases op with
  | readUsers => exact fits_obj (o := .passwd) hh trivial hp
  | readFavourites u => exact hp.elim (fun hp => fits_obj (o := .favourite u) hh h hp) fun hp => fits_obj (o := .boardList) hh trivial hp
  | readBoards => exact fits_obj (o := .boardList) hh trivial hp
  | listArticles b => exact fits_obj (o := .articleIndex b) hh h hp
  | listTreasure b ds => exact fits_obj (o := .treasureIndex b ds) hh h hp
  | readArticle b f => exact fits_obj (o := .article b f) hh h hp
  | readTreasure b ds f => exact fits_obj (o := .treasure b ds f) hh h hp
  | addBoard r => exact fits_obj (o := .boardList) hh trivial hp
  | createArticle b o d t draw fuel =>
    obtain ⟨k, hp⟩ := hp
    exact fits_obj (o := .article b _) hh ⟨h.1, Nat.le_trans (articleName_fits _ (h.2 k) _).1 (by decide)⟩ hp
  | addRecord b r => exact fits_obj (o := .articleIndex b) hh h hp
  | writeArticle b f x => exact fits_obj (o := .article b f) hh h hp
  | appendArticle b f x => exact fits_obj (o := .article b f) hh h hp
  | readDraft u d => exact fits_obj (o := .draft u d) hh h hp
  | deleteDraft u d => exact fits_obj (o := .draft u d) hh h hp
  | writeDraft u d x => exact fits_obj (o := .draft u d) hh h hp

/-- **C143**, names of at most 255 bytes: a call on a system with limits is the call of the database. -/
theorem C143_short (db : DB) (c : Codec) (op : Call) (hh : RoomyHome db.home) (h : ShortCall op) (fs : FS) (hd : (op.exec db c fs).2 ≠ .diverge) :
    ∃ m, ∀ ns : List Nat, m ≤ ns.length → ∃ fs', Job.playLimited db.cwd ns fs (Job.start db c op) = (fs', .done (op.exec db c fs).2) ∧
      ∀ q, fs'.get q = (op.exec db c fs).1.get q := by
  obtain ⟨m, hm⟩ := C120_alone db c fs op hd
  refine ⟨m, fun ns hn => ?_⟩
  rw [C143_fits db c op (fits_short hh h)]
  exact hm ns hn

/-! ## Names that do not fit -/

/-- The limits are refusals, of which C139 speaks. -/
theorem C143_refusals (cwd : Path) : ∀ (ns : List Nat) (fs : FS) (j : Job), ∃ rs : List (Nat × Option String),
    rs.map Prod.fst = ns ∧ (∀ x ∈ rs, x.2 = none ∨ x.2 = some "file name too long") ∧ Job.playLimited cwd ns fs j = Job.playUnder cwd rs fs j
  | [], fs, j => ⟨[], rfl, by simp, rfl⟩
  | n :: ns, fs, j => by
    obtain ⟨rs, h1, h2, h3⟩ := C143_refusals cwd ns (j.stepLimited cwd fs n).1 (j.stepLimited cwd fs n).2
    refine ⟨(n, j.limit cwd fs) :: rs, by simp [h1], ?_, h3⟩
    intro x hx
    rcases List.mem_cons.mp hx with rfl | hx
    · unfold Job.limit
      split
      · split
        · exact .inr rfl
        · exact .inl rfl
      · exact .inl rfl
    · exact h2 x hx

/-- The call is told that its name is too long, it says so, and nothing has changed. -/
def Spec.TooLongTold (P : Call → Prop) : Prop :=
  ∀ (db : DB) (c : Codec) (fs : FS) (op : Call) (n : Nat) (ns : List Nat), P op → (∃ p, PathOf db p op) →
    (∀ p, PathOf db p op → fs.tooLong db.cwd p = true) →
    Job.playLimited db.cwd (n :: ns) fs (Job.start db c op) = (fs, .done (.err "file name too long"))

/-- The calls that do. -/
def Spec.tellsLength : Call → Prop
  | .readFavourites _ => False
  | .readDraft _ _ => False
  | .createArticle .. => False
  | _ => True

theorem limited_done (cwd : Path) (r : Res Answer) : ∀ (ns : List Nat) (fs : FS), Job.playLimited cwd ns fs (.done r) = (fs, .done r)
  | [], _ => rfl
  | _ :: ns, fs => limited_done cwd r ns fs

theorem limited_first {cwd : Path} {fs fs' : FS} {j : Job} {p : Bytes} {r : Res Answer} (hp : j.path? = some p) (ht : fs.tooLong cwd p = true)
    (h : j.stepUnder cwd fs n (some "file name too long") = (fs', .done r)) (ns : List Nat) :
    Job.playLimited cwd (n :: ns) fs j = (fs', .done r) := by
  have e : j.stepLimited cwd fs n = (fs', .done r) := by
    unfold Job.stepLimited Job.limit
    rw [hp]
    simp only [ht]
    exact h
  unfold Job.playLimited
  rw [e]
  exact limited_done cwd r ns fs'

theorem C143_partial : TooLongTold tellsLength := by
  intro db c fs op n ns hop ⟨p, hp⟩ hall
  have ht := hall p hp
  clear hall
  cases op with
  | readFavourites u => exact hop.elim
  | readDraft u d => exact hop.elim
  | createArticle b o d t draw fuel => exact hop.elim
  | _ =>
    have hp' := hp
    simp only [PathOf] at hp'
    unfold Job.start
    simp only [hp']
    exact limited_first rfl ht rfl ns

/-- **C143**, drafts and favourites: a name that is too long is taken for one that is free. -/
theorem C143_draft (db : DB) (c : Codec) (fs : FS) (u d p : Bytes) (hp : getUserDraftPath db.home u d = .ok p) (ht : fs.tooLong db.cwd p = true)
    (n : Nat) (ns : List Nat) : Job.playLimited db.cwd (n :: ns) fs (Job.start db c (.readDraft u d)) = (fs, .done (.ok (.bytes []))) := by
  unfold Job.start
  simp only [hp]
  exact limited_first rfl ht rfl ns

theorem C143_favourites (db : DB) (c : Codec) (fs : FS) (u p : Bytes) (hp : getUserFavoritePath db.home u = .ok p) (ht : fs.tooLong db.cwd p = true)
    (n : Nat) (ns : List Nat) : Job.playLimited db.cwd (n :: ns) fs (Job.start db c (.readFavourites u)) = (fs, .done (.ok (.favourites []))) := by
  unfold Job.start
  simp only [hp]
  exact limited_first rfl ht rfl ns

theorem limited_tries {db : DB} {fs : FS} {b o d t : Bytes} {draw : Nat → Int × Fin 4096} (hb : b ≠ [])
    (ht : ∀ k p, getBoardArticleFilePath db.home b (DB.articleName (draw k).1 (draw k).2) = .ok p → fs.tooLong db.cwd p = true) :
    ∀ (fuel k : Nat) (ns : List Nat), Job.playLimited db.cwd ns fs (Job.tryNames db b o d t draw fuel k) =
      (fs, Job.tryNames db b o d t draw (fuel - ns.length) (k + min fuel ns.length))
  | 0, k, ns => by simp only [Job.tryNames, limited_done, Nat.zero_sub]
  | fuel + 1, k, [] => rfl
  | fuel + 1, k, n :: ns => by
    have hp := articlePath_ok (home := db.home) hb (DB.articleName (draw k).1 (draw k).2)
    have e : Job.playLimited db.cwd (n :: ns) fs (Job.tryNames db b o d t draw (fuel + 1) k) =
        Job.playLimited db.cwd ns fs (Job.tryNames db b o d t draw fuel (k + 1)) := by
      rw [Job.tryNames]
      simp only [hp, Job.orStop, Job.playLimited, Job.stepLimited, Job.limit, Job.path?, ht k _ hp, if_true, Job.stepUnder]
    rw [e, limited_tries hb ht fuel (k + 1) ns, List.length_cons, Nat.add_sub_add_right,
      show k + 1 + min fuel ns.length = k + min (fuel + 1) (ns.length + 1) by omega]

theorem reachesLong_append {fs : FS} : ∀ {as : List Bytes} {cur : Path} (bs : List Bytes), fs.reachesLong cur as = true →
    fs.reachesLong cur (as ++ bs) = true
  | [], _, _, h => by cases h
  | a :: as, cur, bs, h => by
    rw [List.cons_append]
    unfold FS.reachesLong at h ⊢
    split at h
    · next e =>
      rw [Bool.or_eq_true] at h
      rcases h with h | h
      · rw [h, Bool.true_or]
      · rw [reachesLong_append bs h, Bool.or_true]
    · cases h

/-- What is in a directory whose name is too long has a name that is too long. -/
theorem tooLong_below {fs : FS} {cwd : Path} {d : Bytes} (hd : d ≠ []) (h : fs.tooLong cwd d = true) {name : Bytes} (hn : 0 ∉ name) :
    fs.tooLong cwd (d ++ slash :: name) = true := by
  have hs : pathStart cwd (d ++ slash :: name) = pathStart cwd d := by
    unfold pathStart
    cases d with
    | nil => exact absurd rfl hd
    | cons x xs => rfl
  unfold FS.tooLong at h ⊢
  rw [hs, splitByte_sep]
  simp only [Bool.and_eq_true, Bool.or_eq_true, decide_eq_true_eq] at h ⊢
  refine ⟨?_, h.2.imp (fun h => ?_) (reachesLong_append _)⟩
  · simp only [List.mem_append, List.mem_cons, not_or]
    exact ⟨h.1, by decide, hn⟩
  · simp only [List.length_append]
    omega

/-- **C143**, a new article on a board whose name is too long: the search for a name never ends, and nothing changes. -/
theorem C143_create (db : DB) (c : Codec) (fs : FS) (b o d t : Bytes) (draw : Nat → Int × Fin 4096) (fuel : Nat) (hb : b ≠ [])
    (ht : fs.tooLong db.cwd (boardDir db.home b) = true) (ns : List Nat) :
    ∃ j, Job.playLimited db.cwd ns fs (Job.start db c (.createArticle b o d t draw fuel)) = (fs, j) ∧
      ∀ r, j = .done r → r = .diverge ∧ fuel ≤ ns.length := by
  refine ⟨_, limited_tries hb (fun k p hp => ?_) fuel 0 ns, fun r hr => ?_⟩
  · rw [articlePath_ok hb] at hp
    cases hp
    exact tooLong_below (boardDir_ne_nil _ _) ht (articleName_component _ _).2
  cases hm : fuel - ns.length with
  | zero =>
    rw [hm] at hr
    cases hr
    exact ⟨rfl, by omega⟩
  | succ m =>
    rw [hm, Job.tryNames] at hr
    simp only [articlePath_ok (home := db.home) hb, Job.orStop] at hr
    cases hr

/-! ## What is on the disk -/

/-- No name on the disk is longer than 255 bytes. -/
def Spec.GoodNames (fs : FS) : Prop := ∀ q, fs.get q ≠ none → ∀ x ∈ q, x.length ≤ 255

theorem enter_short {cur : Path} {c : Bytes} (h : ∀ x ∈ cur, x.length ≤ 255) (hc : c.length ≤ 255) : ∀ x ∈ cur.enter c, x.length ≤ 255 := by
  unfold Path.enter
  intro x hx
  split at hx
  · exact h x hx
  · split at hx
    · exact h x (List.dropLast_subset _ hx)
    · rcases List.mem_append.mp hx with hx | hx
      · exact h x hx
      · rw [List.mem_singleton.mp hx]; exact hc

theorem walk_short {fs : FS} : ∀ {cs : List Bytes} {cur l : Path}, fs.walk cur cs = .ok l → fs.reachesLong cur cs = false →
    (∀ x ∈ cur, x.length ≤ 255) → ∀ x ∈ l, x.length ≤ 255
  | [], cur, l, h, _, hc => by cases h; exact hc
  | c :: cs, cur, l, h, hr, hc => by
    unfold FS.walk at h
    unfold FS.reachesLong at hr
    split at h
    · cases h
    · cases h
    · next e =>
      rw [e] at hr
      simp only [Bool.or_eq_false_iff, decide_eq_false_iff_not, Nat.not_lt] at hr
      exact walk_short h hr.2 (enter_short hc hr.1)

theorem pathStart_short {cwd : Path} (h : ∀ x ∈ cwd, x.length ≤ 255) (p : Bytes) : ∀ x ∈ pathStart cwd p, x.length ≤ 255 := by
  unfold pathStart
  split
  · simp
  · exact h

theorem lookup_short {fs : FS} {cwd l : Path} {p : Bytes} (hc : ∀ x ∈ cwd, x.length ≤ 255) (ht : fs.tooLong cwd p = false)
    (h : fs.lookup cwd p = .ok l) : ∀ x ∈ l, x.length ≤ 255 := by
  unfold FS.lookup at h
  unfold FS.tooLong at ht
  split at h
  · cases h
  · split at h
    · cases h
    · next h0 =>
      rw [decide_eq_true h0, Bool.true_and, Bool.or_eq_false_iff] at ht
      exact walk_short h ht.2 (pathStart_short hc p)

theorem goodNames_set {fs : FS} (h : GoodNames fs) {l : Path} (hl : ∀ x ∈ l, x.length ≤ 255) (n : Node) : GoodNames (fs.set l n) := by
  intro q hq x hx
  by_cases e : q = l
  · rw [e] at hx; exact hl x hx
  · refine h q (fun h0 => hq ?_) x hx
    unfold FS.get FS.set at *
    split
    · next e => rw [e] at hx; cases hx
    · next e2 => rw [FS.lookup_cons_if, if_neg e]; rw [if_neg e2] at h0; exact h0

theorem goodNames_del {fs : FS} (h : GoodNames fs) (l : Path) : GoodNames (fs.del l) := by
  intro q hq x hx
  refine h q (fun h0 => hq ?_) x hx
  unfold FS.get FS.del at *
  split
  · next e => rw [e] at hx; cases hx
  · next e2 =>
    rw [if_neg e2] at h0
    rw [FS.lookup_filter, h0]
    split <;> rfl

theorem openCreate_short {fs : FS} {cwd l : Path} {p d : Bytes} (hc : ∀ x ∈ cwd, x.length ≤ 255) (ht : fs.tooLong cwd p = false)
    (h : fs.openCreate cwd p = .ok (l, d)) : ∀ x ∈ l, x.length ≤ 255 := by
  unfold FS.openCreate at h
  obtain ⟨l', h1, h2⟩ := Res.bind_eq_ok.mp h
  have : l' = l := by
    split at h2 <;> cases h2 <;> rfl
  exact this ▸ lookup_short hc ht h1

theorem createExcl_short {fs fs' : FS} {cwd : Path} {p : Bytes} (hg : GoodNames fs) (hc : ∀ x ∈ cwd, x.length ≤ 255) (ht : fs.tooLong cwd p = false)
    (h : fs.createExcl cwd p = .ok fs') : GoodNames fs' := by
  unfold FS.createExcl at h
  obtain ⟨l, h1, h2⟩ := Res.bind_eq_ok.mp h
  split at h2 <;> cases h2
  exact goodNames_set hg (lookup_short hc ht h1) _

theorem remove_short {fs fs' : FS} {cwd : Path} {p : Bytes} (hg : GoodNames fs) (h : fs.remove cwd p = .ok fs') : GoodNames fs' := by
  unfold FS.remove at h
  obtain ⟨l, h1, h2⟩ := Res.bind_eq_ok.mp h
  split at h2
  · cases h2
  · cases h2; exact goodNames_del hg l
  · split at h2
    · cases h2
    · split at h2
      · cases h2
      · cases h2; exact goodNames_del hg l

theorem goodNames_step {cwd : Path} (hc : ∀ x ∈ cwd, x.length ≤ 255) {fs : FS} (hg : GoodNames fs) (n : Nat) (j : Job) :
    GoodNames (j.stepLimited cwd fs n).1 := by
  unfold Job.stepLimited
  cases hl : j.limit cwd fs with
  | some e => cases j <;> exact hg
  | none =>
    have ht : ∀ p, j.path? = some p → fs.tooLong cwd p = false := by
      intro p hp
      unfold Job.limit at hl
      rw [hp] at hl
      simp only at hl
      split at hl
      · cases hl
      · next h => simpa using h
    have old : ∀ {l : Path} {d : Bytes}, fs.get l = some (.file d) → ∀ x ∈ l, x.length ≤ 255 := fun h => hg _ (by rw [h]; simp)
    unfold Job.stepUnder
    simp only
    cases j with
    | openMake p k =>
      simp only [Job.step]
      split
      · next l d h =>
        simp only
        split
        · exact goodNames_set hg (openCreate_short hc (ht p rfl) h) _
        · exact hg
      all_goals exact hg
    | openTrunc p k =>
      simp only [Job.step]
      split
      · next l d h => exact goodNames_set hg (openCreate_short hc (ht p rfl) h) _
      all_goals exact hg
    | openExcl p k =>
      simp only [Job.step]
      split
      · next fs' h => exact createExcl_short hg hc (ht p rfl) h
      · exact hg
    | read l size got pos k =>
      simp only [Job.step]
      split
      · split <;> exact hg
      · split <;> exact hg
      · exact hg
    | append l bs k =>
      simp only [Job.step]
      split
      · next d h => exact goodNames_set hg (old h) _
      · exact hg
    | put l bs k =>
      simp only [Job.step]
      split
      · next d h => exact goodNames_set hg (old h) _
      · exact hg
    | unlink p k =>
      simp only [Job.step]
      split
      · next fs' h => exact remove_short hg h
      all_goals exact hg
    | _ => exact hg

theorem goodNames_site {db : DB} {c : Codec} (hc : ∀ x ∈ db.cwd, x.length ≤ 255) {s : Site} (hg : GoodNames s.fs) (p n : Nat) :
    GoodNames (s.stepLimited db c p n).1.fs := by
  unfold Site.stepLimited
  split
  · exact hg
  · exact hg
  · exact hg
  · exact goodNames_step hc hg n _

/-- **C143**, what is on the disk: whatever the clients ask for, in whatever order they move, no name on the disk gets longer than 255 bytes. -/
theorem C143_names (db : DB) (c : Codec) (hc : ∀ x ∈ db.cwd, x.length ≤ 255) : ∀ (sched : List (Nat × Nat)) (s : Site), GoodNames s.fs →
    GoodNames (s.runLimited db c sched).1.fs
  | [], _, h => h
  | (p, n) :: sched, s, h => by
    unfold Site.runLimited
    exact C143_names db c hc sched _ (goodNames_site hc h p n)

/-- A component that is too long leads nowhere. -/
theorem walk_long {fs : FS} (hg : GoodNames fs) : ∀ {cs : List Bytes} {cur : Path}, fs.reachesLong cur cs = true →
    fs.walk cur cs = .err "no such file or directory" ∨ ∃ l, fs.walk cur cs = .ok l ∧ fs.get l = none
  | [], _, h => by cases h
  | c :: cs, cur, h => by
    unfold FS.reachesLong at h
    unfold FS.walk
    cases e : fs.get cur with
    | none => rw [e] at h; cases h
    | some x =>
      cases x with
      | file d => rw [e] at h; cases h
      | dir =>
        rw [e] at h
        simp only [Bool.or_eq_true, decide_eq_true_eq] at h
        simp only
        rcases h with h | h
        · have he : cur.enter c = cur ++ [c] := by
            unfold Path.enter
            rw [if_neg, if_neg]
            · intro h1; rw [h1] at h; simp at h
            · rintro (h1 | h1) <;> rw [h1] at h <;> simp at h
          have hn : fs.get (cur.enter c) = none := by
            cases h2 : fs.get (cur.enter c) with
            | none => rfl
            | some y =>
              have := hg _ (by rw [h2]; simp) c (by rw [he]; simp)
              omega
          cases cs with
          | nil => exact .inr ⟨_, rfl, hn⟩
          | cons y ys => left; unfold FS.walk; rw [hn]
        · exact walk_long hg h

/-- **C143**, what cannot be there is not there: without the limits, a component that is too long would be a file that does not exist. -/
theorem C143_free (fs : FS) (cwd : Path) (p : Bytes) (hg : GoodNames fs) (hp : p.length < 4096) (ht : fs.tooLong cwd p = true) :
    fs.statOk cwd p = false ∧ fs.readFile cwd p = .err "no such file or directory" ∧ fs.remove cwd p = .err "no such file or directory" := by
  unfold FS.tooLong at ht
  rw [decide_eq_false (Nat.not_le.mpr hp), Bool.false_or, Bool.and_eq_true, decide_eq_true_eq] at ht
  have hl : fs.lookup cwd p = .err "no such file or directory" ∨ ∃ l, fs.lookup cwd p = .ok l ∧ fs.get l = none := by
    unfold FS.lookup
    split
    · exact .inl rfl
    · rw [if_neg ht.1]; exact walk_long hg ht.2
  unfold FS.statOk FS.readFile FS.remove
  rcases hl with h | ⟨l, h, h1⟩
  · rw [h]; exact ⟨rfl, rfl, rfl⟩
  · rw [h]
    change (fs.get l).isSome = false ∧ (match fs.get l with | none => _ | some .dir => _ | some (.file d) => _) = _ ∧
      (match fs.get l with | none => _ | some (.file _) => _ | some .dir => _) = _
    rw [h1]
    exact ⟨rfl, rfl, rfl⟩

/-! ## The full claim is false -/

/-- The directories of a user and of a board whose names begin with `x`. -/
def longFS : FS := ⟨[([ascii "bbs", ascii "boards", ascii "x"], .dir), ([ascii "bbs", ascii "boards"], .dir), ([ascii "bbs", ascii "home", ascii "x"], .dir),
  ([ascii "bbs", ascii "home"], .dir), ([ascii "bbs"], .dir)]⟩
def longId : Bytes := List.replicate 256 120

theorem longId_draft : longFS.tooLong [] (ascii "/bbs" ++ ascii "/home/" ++ fmtC 120 ++ ascii "/" ++ longId ++ ascii "/buf." ++ ascii "1") = true := by
  decide +kernel

/-- **C143 is false of the code for reading drafts**, which answers with an empty one. -/
theorem C143_draft_refuted : ¬ Spec.TooLongTold (fun op => ∃ u d, op = .readDraft u d) := by
  intro h
  have := h mixedDB mixedCodec longFS (.readDraft longId (ascii "1")) 0 [] ⟨_, _, rfl⟩ ⟨_, rfl⟩ (by rintro p hp; cases hp; exact longId_draft)
  rw [C143_draft mixedDB mixedCodec longFS longId (ascii "1") _ rfl longId_draft 0 []] at this
  cases this

theorem longId_favourites : longFS.tooLong [] (ascii "/bbs" ++ ascii "/home/" ++ fmtC 120 ++ ascii "/" ++ longId ++ ascii "/.fav") = true := by
  decide +kernel
theorem longId_board : longFS.tooLong mixedDB.cwd (boardDir mixedDB.home longId) = true := by decide +kernel

/-- **C143 is false of the code for new articles**, which never answers. -/
theorem C143_create_refuted : ¬ Spec.TooLongTold (fun op => ∃ b o d t draw fuel, op = .createArticle b o d t draw fuel) := by
  intro h
  have hb : longId ≠ [] := by decide +kernel
  have hp : ∀ k : Nat, _ := fun k => articlePath_ok (home := mixedDB.home) hb (DB.articleName 5 0)
  have := h mixedDB mixedCodec longFS (.createArticle longId [] [] [] (fun _ => (5, 0)) 9) 0 [] ⟨_, _, _, _, _, _, rfl⟩ ⟨_, 0, hp 0⟩ (by
    rintro p ⟨k, hk⟩
    rw [articlePath_ok hb] at hk
    cases hk
    exact tooLong_below (boardDir_ne_nil _ _) longId_board (articleName_component _ _).2)
  obtain ⟨j, h1, h2⟩ := C143_create mixedDB mixedCodec longFS longId [] [] [] (fun _ => (5, 0)) 9 hb longId_board [0]
  rw [h1] at this
  cases (h2 _ (congrArg Prod.snd this)).1

/-- **C143 is false of the code.** -/
theorem C143_refuted : ¬ Spec.TooLongTold (fun _ => True) :=
  fun h => C143_draft_refuted fun db c fs op n ns _ => h db c fs op n ns trivial

/-! ## Examples -/

example : RoomyHome (ascii "/home/bbs") ∧ ShortCall (.writeDraft (ascii "SYSOP") (ascii "1") (ascii "text")) := by
  refine ⟨⟨?_, ?_⟩, ?_, ?_⟩ <;> decide +kernel
example : NameFits (List.replicate 255 120) ∧ ¬ NameFits longId ∧ ¬ NameFits (List.replicate 2048 [120, 47]).flatten := by decide +kernel
example : CallFits mixedDB (.readDraft (ascii "SYSOP") (ascii "1")) := fits_short (by constructor <;> decide +kernel) (by constructor <;> decide +kernel)
example : ClientFits mixedDB ⟨[.readDraft (ascii "SYSOP") (ascii "1"), .readUsers], none⟩ :=
  ⟨fun op h => by
    rcases List.mem_cons.mp h with rfl | h
    · exact fits_short (by constructor <;> decide +kernel) (by constructor <;> decide +kernel)
    · rw [List.mem_singleton.mp h]; exact fits_short (by constructor <;> decide +kernel) trivial, fun _ h => by cases h⟩

/-- A list of articles of a board that is not there is empty; of one that cannot be there, an error. -/
example : Job.playLimited [] [0] longFS (Job.start mixedDB mixedCodec (.listArticles (ascii "xy"))) = (longFS, .done (.ok (.articles []))) := rfl
example : Job.playLimited [] [0] longFS (Job.start mixedDB mixedCodec (.listArticles longId)) = (longFS, .done (.err "file name too long")) :=
  C143_partial mixedDB mixedCodec longFS (.listArticles longId) 0 [] trivial ⟨_, rfl⟩ (by rintro p hp; cases hp; decide +kernel)

example : GoodNames longFS := by
  intro q hq x hx
  unfold FS.get at hq
  split at hq
  · next e => rw [e] at hx; cases hx
  · have : ∀ (es : List (Path × Node)), es.lookup q ≠ none → ∃ n, (q, n) ∈ es := by
      intro es
      induction es with
      | nil => intro h; exact absurd rfl h
      | cons y es ih =>
        intro h
        rw [FS.lookup_cons_if] at h
        split at h
        · next e => exact ⟨y.2, by rw [e]; exact List.mem_cons_self ..⟩
        · obtain ⟨n, hn⟩ := ih h
          exact ⟨n, List.mem_cons_of_mem _ hn⟩
    obtain ⟨n, hn⟩ := this _ hq
    have all : ∀ y ∈ longFS.entries, ∀ x ∈ y.1, x.length ≤ 255 := by decide +kernel
    exact all _ hn x hx

end Verif
