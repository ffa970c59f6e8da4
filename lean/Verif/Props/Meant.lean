import Verif.Props.Canon
import Verif.Props.Api
/-!
# C103, exactly: reserved names

For names that the library uses itself the database is still a map, from the objects that are meant (`Obj.meant`).
-/

namespace Verif
open Spec

namespace Spec

/-- The behaviour of each call on contents, whatever the name: an article or a treasure with a reserved name is the object it means. -/
def intendedMeant (c : Codec) (m : Holding) : Call → Holding × Res Answer
  | .readArticle b f => (m, do .ok (.bytes (← m.need (Obj.article b f).meant)))
  | .readTreasure b ds f => (m, do .ok (.bytes (← m.need (Obj.treasure b ds f).meant)))
  | .writeArticle b f x =>
    (m.put (Obj.article b f).meant (some (x ++ ((m (Obj.article b f).meant).getD []).drop x.length)), .ok .done)
  | .appendArticle b f x => match m (Obj.article b f).meant with
    | some y => (m.put (Obj.article b f).meant (some (y ++ x)), .ok .done)
    | none => (m, .err "no such file or directory")
  | op => intended c m op

def intendedMeantAll (c : Codec) (m : Holding) : List Call → Holding × List (Res Answer)
  | [] => (m, [])
  | op :: ops =>
    let (m', r) := intendedMeant c m op
    let (m'', rs) := intendedMeantAll c m' ops
    (m'', r :: rs)

end Spec

theorem meant_path (home : Bytes) (o : Obj) : o.meant.path home = o.path home := by
  cases o
  case mail u f =>
    simp only [Obj.meant]
    split
    · next h => rw [h]; exact (C20_reserved_names_collide home u [] []).1.symm
    · split
      · next h => rw [h]; exact (C20_reserved_names_collide home u [] []).2.1.symm
      · split
        · next h =>
          obtain ⟨d, rfl⟩ := h
          exact (C20_reserved_names_collide home u [] d).2.2.1.symm
        · rfl
  case article b f =>
    simp only [Obj.meant]
    split
    · next h => rw [h]; exact (C20_reserved_names_collide home b [] []).2.2.2.1.symm
    · split
      · next h => rw [h]; exact (C20_reserved_names_collide home b [] []).2.2.2.2.1.symm
      · rfl
  case treasure b ds f =>
    simp only [Obj.meant]
    split
    · next h => rw [h]; exact (C20_reserved_names_collide home b ds []).2.2.2.2.2.symm
    · rfl
  all_goals rfl

theorem meant_at (db : DB) (o : Obj) : at_ db o.meant = at_ db o := by
  unfold at_
  rw [meant_loc]

theorem meant_drawn (b : Bytes) (t : Int) (r : Fin 4096) : (Obj.article b (DB.articleName t r)).meant = .article b (DB.articleName t r) := by
  have h : (DB.articleName t r).head? = some 77 := rfl
  refine meant_self ⟨fun e => ?_, fun e => ?_⟩ <;> rw [e] at h <;> revert h <;> decide

theorem meant_step {db : DB} {c : Codec} {fs0 fs : FS} {m : Holding} (h : Shows db fs0 fs m) (op : Call)
    (hop : ∀ o, touches op o → Placed db fs0 o.meant) :
    (op.exec db c fs).2 = (intendedMeant c m op).2 ∧ Shows db fs0 (op.exec db c fs).1 (intendedMeant c m op).1 ∧
      ∀ q, ¬ changedAt db op q → (op.exec db c fs).1.get q = fs.get q := by
  have keep : ∀ {o : Obj} {x : Bytes}, Placed db fs0 o.meant → changes op o →
      ∀ q, ¬ changedAt db op q → (fs.set (at_ db o.meant) (.file x)).get q = fs.get q := by
    intro o x ho hc q hq
    rw [FS.get_set (FS.ne_root (shows_notDir h ho)), if_neg (fun e => hq ⟨o, hc, by rw [e, meant_at]⟩)]
  cases op with
  | readArticle b f =>
    have ho := hop (.article b f) rfl
    obtain ⟨p, hp, _⟩ := shows_place h ho
    refine ⟨?_, h, fun _ _ => rfl⟩
    have hp' : getBoardArticleFilePath db.home b f = .ok p := (meant_path db.home (.article b f)).symm.trans hp
    simp only [Call.exec, reads, intendedMeant, DB.readBoardArticleFile, hp', Res.ok_bind, shows_need h ho hp]
  | readTreasure b ds f =>
    have ho := hop (.treasure b ds f) rfl
    obtain ⟨p, hp, _⟩ := shows_place h ho
    refine ⟨?_, h, fun _ _ => rfl⟩
    have hp' : getBoardTreasureFilePath db.home b ds f = .ok p := (meant_path db.home (.treasure b ds f)).symm.trans hp
    simp only [Call.exec, reads, intendedMeant, DB.readTreasureFile, hp', Res.ok_bind, shows_need h ho hp]
  | writeArticle b f x =>
    have ho := hop (.article b f) rfl
    obtain ⟨p, hp, hl⟩ := shows_place h ho
    have hp : getBoardArticleFilePath db.home b f = .ok p := (meant_path db.home (.article b f)).symm.trans hp
    have e : db.writeBoardArticleFile fs b f x =
        .ok (fs.set (at_ db (Obj.article b f).meant) (.file (x ++ ((m (Obj.article b f).meant).getD []).drop x.length))) := by
      simp only [DB.writeBoardArticleFile, hp, Res.ok_bind, FS.overwrite, FS.openCreate_of hl (shows_notDir h ho), shows_fileAt h ho]
      simp [writeAt, zeros]
    simp only [Call.exec, e, writes, intendedMeant]
    exact ⟨trivial, shows_put h ho _, keep ho rfl⟩
  | appendArticle b f x =>
    have ho := hop (.article b f) rfl
    obtain ⟨p, hp, hl⟩ := shows_place h ho
    have hp : getBoardArticleFilePath db.home b f = .ok p := (meant_path db.home (.article b f)).symm.trans hp
    have hc := h.content _ ho
    cases hm : m (Obj.article b f).meant with
    | none =>
      rw [hm] at hc
      have e : db.appendBoardArticleFile fs b f x = .err "no such file or directory" := by
        simp only [DB.appendBoardArticleFile, hp, Res.ok_bind, FS.append, hl, hc]
        rfl
      simp only [Call.exec, e, writes, intendedMeant, hm]
      exact ⟨trivial, h, fun _ _ => trivial⟩
    | some y =>
      rw [hm] at hc
      have e : db.appendBoardArticleFile fs b f x = .ok (fs.set (at_ db (Obj.article b f).meant) (.file (y ++ x))) := by
        simp only [DB.appendBoardArticleFile, hp, Res.ok_bind, FS.append, hl, hc]
        rfl
      simp only [Call.exec, e, writes, intendedMeant, hm]
      exact ⟨trivial, shows_put h ho _, keep ho rfl⟩
  | createArticle b o d t draw fuel =>
    refine call_step h (.createArticle b o d t draw fuel) ?_
    rintro o ⟨k, rfl⟩
    exact meant_drawn b _ _ ▸ hop _ ⟨k, rfl⟩
  | readFavourites u =>
    refine call_step h (.readFavourites u) ?_
    intro o ho
    have := hop o ho
    rcases ho with rfl | rfl <;> exact this
  | _ =>
    refine call_step h _ ?_
    intro o ho
    have := hop o ho
    rw [show o = _ from ho] at this ⊢
    exact this

/-- **C103**, exactly: for every history of calls whose names are single path components, reserved or not, in places that exist, the calls answer as the map
from the objects that are meant does, afterwards these objects hold what the map says, and no other location has changed. -/
theorem C103_exact (db : DB) (c : Codec) (fs : FS) (ops : List Call) (hops : ∀ op ∈ ops, ∀ o, touches op o → Placed db fs o.meant) :
    let m0 : Holding := fun o => fileAt fs (at_ db o)
    (Call.execAll db c fs ops).2 = (intendedMeantAll c m0 ops).2 ∧
    (∀ o, Placed db fs o.meant → fileAt (Call.execAll db c fs ops).1 (at_ db o) = (intendedMeantAll c m0 ops).1 o.meant) ∧
    ∀ q, (∀ op ∈ ops, ¬ changedAt db op q) → (Call.execAll db c fs ops).1.get q = fs.get q := by
  intro m0
  have key : ∀ (ops : List Call) (fs' : FS) (m : Holding), Shows db fs fs' m → (∀ op ∈ ops, ∀ o, touches op o → Placed db fs o.meant) →
      (Call.execAll db c fs' ops).2 = (intendedMeantAll c m ops).2 ∧ Shows db fs (Call.execAll db c fs' ops).1 (intendedMeantAll c m ops).1 ∧
      ∀ q, (∀ op ∈ ops, ¬ changedAt db op q) → (Call.execAll db c fs' ops).1.get q = fs'.get q := by
    intro ops
    induction ops with
    | nil => intro fs' m h _; exact ⟨rfl, h, fun _ _ => rfl⟩
    | cons op ops ih =>
      intro fs' m h ho
      obtain ⟨a, b, k⟩ := meant_step (c := c) h op (ho op (by simp))
      obtain ⟨a', b', k'⟩ := ih _ _ b (fun x hx => ho x (by simp [hx]))
      refine ⟨?_, b', ?_⟩
      · simp only [Call.execAll, intendedMeantAll, a, a']
      · intro q hq
        simp only [Call.execAll]
        rw [k' q (fun x hx => hq x (by simp [hx])), k q (hq op (by simp))]
  obtain ⟨a, b, k⟩ := key ops fs m0 (shows_start db fs) hops
  exact ⟨a, fun o ho => by rw [← meant_at]; exact shows_fileAt b ho, k⟩

/-- **C103, whoever may write articles may write lists.** Writing an article called `.DIR` makes the list of the board whatever the caller likes, over its
beginning. -/
theorem C103_forged (db : DB) (c : Codec) (fs fs' : FS) (b x : Bytes) (hb : Placed db fs (.articleIndex b))
    (hx : ((fileAt fs (at_ db (.articleIndex b))).getD []).length ≤ x.length) (h : db.writeBoardArticleFile fs b (ascii ".DIR") x = .ok fs') :
    db.readArticleRecords c fs' b = .ok (articlesIn c x) := by
  have hm : (Obj.article b (ascii ".DIR")).meant = .articleIndex b := by simp [Obj.meant]
  have := (C103_exact db c fs [.writeArticle b (ascii ".DIR") x, .listArticles b] ?_).1
  · simp only [Call.execAll, Call.exec, h, writes, reads, intendedMeantAll, intendedMeant, intended, hm] at this
    have h2 := (List.cons.inj (List.cons.inj this).2).1
    simp only [Holding.put, if_true, Option.getD_some] at h2
    rw [List.drop_eq_nil_of_le hx, List.append_nil] at h2
    cases hq : db.readArticleRecords c fs' b with
    | ok l => rw [hq] at h2; rw [Answer.articles.inj (Res.ok.inj h2)]
    | _ => rw [hq] at h2; cases h2
  · intro op hop o ho
    simp only [List.mem_cons, List.not_mem_nil, or_false] at hop
    rcases hop with rfl | rfl
    · rw [show o = _ from ho, hm]; exact hb
    · rw [show o = _ from ho]; exact hb

/-! ## Examples -/

/-- A history with a reserved name. -/
def forgedCalls : List Call := [.writeArticle (ascii "S") (ascii ".DIR") (ascii "x"), .readArticle (ascii "S") (ascii ".DIR"), .listArticles (ascii "S")]

example : ∀ op ∈ forgedCalls, ∀ o, touches op o → Placed sampleDB sampleFS o.meant := by
  obtain ⟨_, h2, _⟩ := sample_placed
  intro op hop o ho
  simp only [forgedCalls, List.mem_cons, List.not_mem_nil, or_false] at hop
  rcases hop with rfl | rfl | rfl <;> rw [show o = _ from ho] <;> exact h2

example : (match sampleDB.writeBoardArticleFile sampleFS (ascii "S") (ascii ".DIR") (ascii "x") with
    | .ok fs' => sampleDB.readBoardArticleFile fs' (ascii "S") (ascii ".DIR")
    | _ => .panic) = .ok (ascii "x") := by decide +kernel

end Verif
