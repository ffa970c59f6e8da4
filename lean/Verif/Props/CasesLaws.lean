import Verif.Props.ExactLaws
import Verif.Props.Crashes
import Verif.Props.Log
import Verif.Props.Descriptors
import Verif.Props.SegmentLength
import Verif.Props.PostCrash
import Verif.Props.Remark
import Verif.Props.RandomNames
import Verif.Props.Sharing
import Verif.Props.Failures
import Verif.Props.Sharper
import Verif.Props.CacheOpen
import Verif.Props.Found
import Verif.Props.Pushed
import Verif.Props.Gone
import Verif.Props.Meant
import Verif.Props.Restart
import Verif.Props.Driver
import Verif.Props.Removers
/-!
# Applications of exact laws to concrete cases
-/

namespace Verif
open Spec

/-- C26: a shorter text written over a longer one is not what is read. -/
example (fs' : FS) (h : sampleDB.writeBoardArticleFile (sampleFS.set [ascii "bbs", ascii "boards", ascii "S", ascii "S", ascii "f"] (.file (ascii "abc")))
    (ascii "S") (ascii "f") (ascii "x") = .ok fs') : sampleDB.readBoardArticleFile fs' (ascii "S") (ascii "f") ≠ .ok (ascii "x") := by
  intro e
  have := (C26_exact sampleDB _ fs' (ascii "S") (ascii "f") (ascii "x") h).mp e (ascii "abc") (by decide +kernel)
  revert this
  decide
/-- A longer one is. -/
example (fs' : FS) (h : sampleDB.writeBoardArticleFile (sampleFS.set [ascii "bbs", ascii "boards", ascii "S", ascii "S", ascii "f"] (.file (ascii "abc")))
    (ascii "S") (ascii "f") (ascii "wxyz") = .ok fs') : sampleDB.readBoardArticleFile fs' (ascii "S") (ascii "f") = .ok (ascii "wxyz") := by
  refine (C26_exact sampleDB _ fs' (ascii "S") (ascii "f") (ascii "wxyz") h).mpr fun old ho => ?_
  have e : sampleDB.readBoardArticleFile (sampleFS.set [ascii "bbs", ascii "boards", ascii "S", ascii "S", ascii "f"] (.file (ascii "abc"))) (ascii "S")
      (ascii "f") = .ok (ascii "abc") := by decide +kernel
  rw [e] at ho
  rw [← Res.ok.inj ho]
  decide

/-- C114: an empty board crashes the call, and only that and broken favourites do. -/
example : ((Call.listArticles []).exec sampleDB asciiCodec sampleFS).2 = .panic :=
  (C114_crash_exact sampleDB asciiCodec sampleFS (.listArticles []) (by
    intro boards h
    revert h
    have : sampleDB.readBoardRecords asciiCodec sampleFS = .err "no such file or directory" := by decide +kernel
    rw [this]
    intro h
    cases h) (by intro _ _ _ _ _ _ h; cases h)).mpr (.inl rfl)

/-- C114: a list that is a directory makes the call hang. -/
example : ((Call.listArticles (ascii "S")).exec sampleDB asciiCodec
    (sampleFS.set [ascii "bbs", ascii "boards", ascii "S", ascii "S", ascii ".DIR"] .dir)).2 = .diverge :=
  (C114_hang_exact sampleDB asciiCodec _ (.listArticles (ascii "S")) (by
    intro boards h
    revert h
    have : sampleDB.readBoardRecords asciiCodec (sampleFS.set [ascii "bbs", ascii "boards", ascii "S", ascii "S", ascii ".DIR"] .dir) =
      .err "no such file or directory" := by decide +kernel
    rw [this]
    intro h
    cases h) (by intro _ _ _ _ _ _ h; cases h)).mpr ⟨_, rfl, [ascii "bbs", ascii "boards", ascii "S", ascii "S", ascii ".DIR"], by decide +kernel, by decide +kernel⟩

/-- C150: a message of two lines and one of one. -/
example : (logLines (logText [⟨sampleStamp, ascii "a\nb"⟩, ⟨sampleStamp, ascii "c"⟩])).length = 3 :=
  (C150_lines [⟨sampleStamp, ascii "a\nb"⟩, ⟨sampleStamp, ascii "c"⟩] (by decide +kernel)).trans (by decide +kernel)
example : (logLines (logText [⟨sampleStamp, ascii "a\nb"⟩, ⟨sampleStamp, ascii "c"⟩])).filter stamped =
    [⟨sampleStamp, ascii "a\nb"⟩, ⟨sampleStamp, ascii "c"⟩].map firstLine :=
  (C150_exact [⟨sampleStamp, ascii "a\nb"⟩, ⟨sampleStamp, ascii "c"⟩] (by decide +kernel)).mpr (by decide +kernel)
/-- A message that forges an entry. -/
example : ¬ (logLines (logText [⟨sampleStamp, ascii "a\n" ++ sampleStamp ++ ascii "b"⟩])).filter stamped =
    [⟨sampleStamp, ascii "a\n" ++ sampleStamp ++ ascii "b"⟩].map firstLine := by
  rw [C150_exact [⟨sampleStamp, ascii "a\n" ++ sampleStamp ++ ascii "b"⟩] (by decide +kernel)]
  decide +kernel
example : (logLines (logText (callEntries (ascii "/bbs") [(sampleStamp, .readDraft (ascii "SYSOP") (ascii "1"))]))).filter stamped =
    (callEntries (ascii "/bbs") [(sampleStamp, .readDraft (ascii "SYSOP") (ascii "1"))]).map firstLine :=
  (C150_partial (ascii "/bbs") [(sampleStamp, .readDraft (ascii "SYSOP") (ascii "1"))] (by decide +kernel) (by decide) (by
    intro p hp
    rw [List.mem_singleton.mp hp]
    decide +kernel)).2

/-- C140: an update of a record needs one descriptor, whatever the calls answer. -/
example (w : Nat → Outcome) : NeedsAtMost 2 [] (Turn.play 0 ([updateFileHeaderSys, updateFileHeaderSys].map .call) w []).2 :=
  C140_closed [updateFileHeaderSys, updateFileHeaderSys] (by
    intro m hm
    simp only [List.mem_cons, List.not_mem_nil, or_false, or_self] at hm
    rw [hm]
    exact ⟨.update, not_unclosed_update⟩) w
example (w : Nat → Outcome) : ∃ u, (updateFileHeaderSys w []).2 = [] ++ u ∧ NeedsAtMost (([] : List Nat).length + 2) [] u :=
  (C140_one_call updateFileHeaderSys .update w []).imp fun _ h => ⟨h.1, h.2.1⟩
/-- Three lists opened, a collection, and an update. -/
example (w : Nat → Outcome) : ∃ u, (Turn.play 0 [.call (openUserecFileSys 1), .call (openUserecFileSys 1), .call (openUserecFileSys 1), .collect,
    .call updateFileHeaderSys] w []).2 = [] ++ u ∧ NeedsAtMost (0 + 3 + 2) [] u :=
  C140_partial 3 _ (.leaving (.users 1) (.leaving (.users 1) (.leaving (.users 1) (.collect (Nat.le_refl _)
    (.closing .update not_unclosed_update (.nil (Nat.zero_le _))))))) w [] (by intro f hf; cases hf)

/-- C102: the tool dies after two bytes of the record; the list shows two letters of the name. -/
example (fs' : FS) (h : sampleDB.postUntil asciiCodec sampleFS (ascii "S") (ascii "pichu") (ascii "11/16") (ascii "hi") (fun _ => (1600000000, 0xABC)) 1
      (ascii "hello") (.recorded 2) = .ok (ascii "M.1600000000.A.ABC", fs')) :
    ∃ r, sampleDB.readArticleRecords asciiCodec fs' (ascii "S") = .ok ([] ++ [r]) ∧ r.filename = ascii "M." ∧ r.owner = [] := by
  obtain ⟨r, h1, h2, -, h3, -⟩ := C102_torn sampleDB asciiCodec sampleFS fs' (ascii "S") (ascii "pichu") (ascii "11/16") (ascii "hi") (ascii "hello") _ _ 1 2
    (by decide) sampleFS_whole h [] (by decide +kernel)
  exact ⟨r, h1, h2.trans (by decide), h3 (by decide)⟩

/-- C158: a line that is a comment, and one that is none, behind a comment. -/
example : articleComments (ascii "S") shelfName (firstPush ++ [10] ++ (ascii "Push BB: ho 11/16 12:35" ++ [10])) =
    .ok ([⟨1, ⟨0, 11, 16, 12, 34, 0⟩, ascii "AA", ascii "S", shelfName, ascii "hi"⟩] ++
      [⟨UInt32.ofNat 2, ⟨0, 11, 16, 12, 35, 0⟩, ascii "BB", ascii "S", shelfName, ascii "ho"⟩]) :=
  (C158_line (ascii "S") shelfName (firstPush ++ [10]) (ascii "Push BB: ho 11/16 12:35") _ (.inr ⟨_, rfl⟩) (by decide +kernel) (by decide) (by decide)
    (by decide +kernel)).1 _ _ _ (by decide +kernel)
example : articleComments (ascii "S") shelfName (firstPush ++ [10] ++ (ascii "hello" ++ [10])) =
    .ok [⟨1, ⟨0, 11, 16, 12, 34, 0⟩, ascii "AA", ascii "S", shelfName, ascii "hi"⟩] :=
  (C158_line (ascii "S") shelfName (firstPush ++ [10]) (ascii "hello") _ (.inr ⟨_, rfl⟩) (by decide +kernel) (by decide) (by decide)
    (by decide +kernel)).2.1 (by decide +kernel)

/-- C112: both readers. -/
example : (∃ n t, openUserInfoCacheSys n unreadable [] = (some false, t)) ∧ ∃ n t, readArticleSys n unreadable [] = (some false, t) :=
  ⟨C112_unreadable_partial _ (.inl rfl), C112_unreadable_partial _ (.inr rfl)⟩

/-- C152: a segment of 65536 bytes. -/
example (mem : Bytes) (p : Nat) (ds : Bytes) (hd : ds.length = structSize Host.linux64.kernelDs) (hs : Host.linux64.reported ds = 65536) :
    Host.linux64.taken mem ds p = 65536 :=
  (C152_partial .linux64 (by decide) mem ds p hd (by rw [hs]; decide)).trans hs

/-- C92: the name changes from `Ann` to `Bob` after the second letter of the copy. -/
example : userIDLive (fun t => if t < 6 then ascii "Ann" ++ [0] else ascii "Bob" ++ [0]) 0 4 = ascii "Anb" :=
  (C92_halves (ascii "Ann" ++ [0]) (ascii "Bob" ++ [0]) 6 0 4 (by decide)).trans (by decide)
/-- Another entry changes: the name is whole. -/
example (f : Nat → UInt8) : userIDLive (fun t => ascii "Ann" ++ [0, f t]) 0 4 = entryAt (fun t => ascii "Ann" ++ [0, f t]) 0 4 0 :=
  C92_untorn_partial _ 0 4 fun t _ k hk => by
    rcases k with _ | _ | _ | _ | k
    · rfl
    · rfl
    · rfl
    · rfl
    · omega

/-- C141: a message of a decoded entry is a window; a byte stored in it changes the entry and nothing else, and there is none behind it. -/
example (o : Online) (h : UserInfo.decodeIn asciiCodec [List.replicate 6968 7] 0 0 3484 = .ok o) :
    (∃ H', (o.msgs[(3 : Fin 10)]).store [List.replicate 6968 7] 5 9 = .ok H' ∧
      o.seen H' = { o.seen [List.replicate 6968 7] with
        msgs := (o.seen [List.replicate 6968 7]).msgs.set (3 : Fin 10) ((o.seen [List.replicate 6968 7]).msgs[(3 : Fin 10)].set 5 9) }) ∧
    (o.msgs[(3 : Fin 10)]).store [List.replicate 6968 7] 100 9 = .panic := by
  obtain ⟨H', h1, -, -, h2⟩ := C141_store asciiCodec [List.replicate 6968 7] 0 0 3484 o h 3 5 (by decide) 9
  exact ⟨⟨H', h1, h2⟩, C141_store_outside asciiCodec [List.replicate 6968 7] 0 0 3484 o h 3 100 (by decide) 9⟩
/-- The entry behind it does not change. -/
example (o p : Online) (ho : UserInfo.decodeIn asciiCodec [List.replicate 6968 7] 0 0 3484 = .ok o)
    (hp : UserInfo.decodeIn asciiCodec [List.replicate 6968 7] 0 3484 3484 = .ok p) (H' : Blocks)
    (h : (o.msgs[(9 : Fin 10)]).store [List.replicate 6968 7] 99 9 = .ok H') : p.seen H' = p.seen [List.replicate 6968 7] :=
  C141_others asciiCodec _ 0 0 3484 0 3484 3484 o p ho hp (.inr (.inl (by decide))) 9 99 9 H' h
/-- More than there is room for is written elsewhere. -/
example (o : Online) (h : UserInfo.decodeIn asciiCodec [List.replicate 3484 7] 0 0 3484 = .ok o) :
    o.seen ((o.msgs[(9 : Fin 10)]).append 0 [List.replicate 3484 7] (List.replicate 193 0)).1 = o.seen [List.replicate 3484 7] :=
  (C141_append_new 0 asciiCodec _ 0 0 3484 o h 9 (List.replicate 193 0) (by
    rw [block_one, List.length_replicate, List.length_replicate]
    decide)).2.1

/-- C153: two maps with the same clock give the same name where it can be made. -/
example (fs1 fs2 : FS) (s1 s2 : Source) (r r' : FileHeader) (h : sampleDB.mapArticleFrom sampleDraws sampleFS mapArgs 9 5 ⟨3, 8⟩ = .ok (r, fs1, s1))
    (h' : sampleDB.mapArticleFrom sampleDraws sampleFS mapArgs 9 7 ⟨0, 0⟩ = .ok (r', fs2, s2)) (hf : CanMake sampleDB sampleFS (ascii "S") (DB.articleName 9 (sampleDraws 9 0))) :
    r.filename = r'.filename :=
  C153_same sampleDB sampleDB sampleDraws sampleFS fs1 sampleFS fs2 mapArgs mapArgs 9 5 7 ⟨3, 8⟩ s1 ⟨0, 0⟩ s2 r r' (ascii "S") (ascii "S")
    (by unfold Spec.Holds; decide) (by unfold Spec.Holds; decide) (by decide) (by decide) h h' hf hf
/-- The next one on the same board takes more numbers. -/
example (fs1 fs3 : FS) (s1 s3 : Source) (r r' : FileHeader) (h : sampleDB.mapArticleFrom sampleDraws sampleFS mapArgs 9 5 ⟨3, 8⟩ = .ok (r, fs1, s1))
    (h' : sampleDB.mapArticleFrom sampleDraws fs1 mapArgs 9 5 s1 = .ok (r', fs3, s3)) : s1.taken < s3.taken :=
  C153_later sampleDB sampleDraws sampleFS fs1 fs1 fs3 mapArgs mapArgs 9 5 5 ⟨3, 8⟩ s1 s1 s3 r r' (ascii "S")
    (by unfold Spec.Holds; decide) (by unfold Spec.Holds; decide) (by decide) h (fun _ hn => hn) h'

/-! ## Calls on the disk of a shelf -/

/-- C158: a comment of another user behind the first. -/
example (fs' : FS) (h : sampleDB.appendBoardArticleFile (shelfFS (firstPush ++ [10])) (ascii "S") shelfName
      (commentLine (ascii "Push") (ascii "BB") (ascii "ho") ⟨0, 11, 16, 12, 35, 0⟩ ++ [10]) = .ok fs') :
    sampleDB.boardArticleComments fs' (ascii "S") shelfName = .ok ([⟨1, ⟨0, 11, 16, 12, 34, 0⟩, ascii "AA", ascii "S", shelfName, ascii "hi"⟩] ++
      [⟨UInt32.ofNat 2, ⟨0, 11, 16, 12, 35, 0⟩, ascii "BB", ascii "S", shelfName, trimSpace (ascii "ho")⟩]) :=
  C158_partial sampleDB (shelfFS (firstPush ++ [10])) fs' (ascii "S") shelfName (ascii "Push") (ascii "BB") (ascii "ho") (firstPush ++ [10]) _ _
    sample_remark (by decide +kernel) (.inr ⟨_, rfl⟩) (by decide +kernel) (by decide +kernel) h

/-- C157: no calls, and the search finds what is on the disk. -/
example : sampleDB.userArticles asciiCodec (Call.execAll sampleDB asciiCodec (shelfFS []) []).1 (ascii "Ab") =
    .ok ((searchedIn asciiCodec (shelfBoard.marshal asciiCodec)).flatMap
      (entriesOf asciiCodec (intendedAll asciiCodec (holdings sampleDB (shelfFS [])) []).1 (ascii "Ab"))) :=
  C157_history sampleDB asciiCodec (shelfFS []) [] (by intro op h; cases h) _ (by
    have := (shelf_placed []).1
    decide +kernel) (shelf_stocked []).shelved (ascii "Ab")
/-- An article is added, and its author finds it behind the other one. -/
example (fs' : FS) (h : sampleDB.addArticleRecord asciiCodec (shelfFS []) (ascii "S") shelfRecord = .ok fs') :
    sampleDB.userArticles asciiCodec fs' (ascii "Ab") = .ok ((searchedIn asciiCodec (shelfBoard.marshal asciiCodec)).flatMap fun x =>
      entriesOf asciiCodec (holdings sampleDB (shelfFS [])) (ascii "Ab") x ++
        if x = ascii "S" ∧ (storedArticle asciiCodec shelfRecord).owner = ascii "Ab" then [asFound (ascii "S") (storedArticle asciiCodec shelfRecord)] else []) :=
  (C157_exact sampleDB asciiCodec (shelfFS []) fs' _ (ascii "S") shelfRecord (ascii "Ab") (shelf_stocked []).shelved (by decide +kernel) (shelf_placed []).2.1
    (by decide +kernel) h).2

/-- C158: the comments that a user finds on that disk. -/
example (l : List UserComment) : sampleDB.userComments asciiCodec (Call.execAll sampleDB asciiCodec (shelfFS (firstPush ++ [10])) []).1 (ascii "AA") = .ok l ↔
    (∀ p ∈ shelves asciiCodec (holdings sampleDB (shelfFS (firstPush ++ [10]))) (shelfBoard.marshal asciiCodec),
      Legible (holdings sampleDB (shelfFS (firstPush ++ [10]))) p) ∧
    l = (shelves asciiCodec (holdings sampleDB (shelfFS (firstPush ++ [10]))) (shelfBoard.marshal asciiCodec)).flatMap
      (remarksOf (holdings sampleDB (shelfFS (firstPush ++ [10]))) (ascii "AA")) :=
  C158_history sampleDB asciiCodec (shelfFS (firstPush ++ [10])) [] (by intro op h; cases h) _ _ rfl (by decide +kernel) (shelf_stocked _) (ascii "AA") l

/-- C103: calls with forged names have the effect of the calls that were meant. -/
example : (Call.execAll sampleDB asciiCodec sampleFS forgedCalls).2 =
    (intendedMeantAll asciiCodec (fun o => fileAt sampleFS (at_ sampleDB o)) forgedCalls).2 :=
  (C103_exact sampleDB asciiCodec sampleFS forgedCalls (by
    obtain ⟨_, h2, _⟩ := sample_placed
    intro op hop o ho
    simp only [forgedCalls, List.mem_cons, List.not_mem_nil, or_false] at hop
    rcases hop with rfl | rfl | rfl <;> rw [show o = _ from ho] <;> exact h2)).1

/-- C156: the tool adds a board, and a restarted service has it behind the others. -/
example (fs' : FS) (st : ServerState) (h : AddBoardRun asciiCodec [] restartOptions restartArgs (disk (zeros 256)) fs')
    (hst : startServer asciiCodec [ascii "serverlet"] (disk (zeros 256)) = .ok st) :
    ∃ b, startServer asciiCodec [ascii "serverlet"] fs' = .ok ⟨st.userRecs, st.boardHeader ++ [b]⟩ ∧ BoardFrom asciiCodec restartArgs b := by
  obtain ⟨b, h1, h2, -⟩ := C156_step asciiCodec [] [ascii "serverlet"] _ restartOptions restartArgs (disk (zeros 256)) fs' st h (restart_same _) (fun d hd => by
    rw [← show zeros 256 = d by
      have := Option.some.inj (show some (Node.file (zeros 256)) = some (.file d) from hd)
      injection this]
    exact ⟨1, List.length_replicate⟩) hst
  exact ⟨b, h1, h2⟩

/-- C29: recommendations that stay within a byte add up. -/
example : (({ FileHeader.zero with recommend := 5 }).addRecommends [1, 1, -1]).recommendInt =
    ({ FileHeader.zero with recommend := 5 } : FileHeader).recommendInt + 1 :=
  C29_recommend_accumulates_partial { FileHeader.zero with recommend := 5 } [1, 1, -1] (by decide) (by decide)

/-! ## Drivers and removals -/

/-- C136: a driver without a board writer crashes, and nothing was changed before. -/
example : ∀ e ∈ tape plainDriver (.addBoard (ascii "c")) 0, e.what.changes = false :=
  C136_nothing_done (d := plainDriver) (.addBoard (ascii "c")) ⟨rfl, 1, _, rfl⟩
/-- C135: a search changes nothing. -/
example : ∀ e ∈ tape plainDriver (.userArticles (ascii "u")) 0, e.what.changes = false :=
  C135_readers (d := plainDriver) (.userArticles (ascii "u")) 0 rfl
/-- C135: no record at all on a disk on which neither file can be opened. -/
example (c : Codec) (draw : Nat → Int × Fin 4096) :
    (pttDriver ⟨ascii "/bbs", []⟩ c draw 5).call (.addBoard .null) ⟨[]⟩ = (⟨[]⟩, .err "no such file or directory") :=
  (C135_null_unopened (b := ascii "Test") (hp := rfl) (hq := rfl) (h1 := rfl) (h2 := rfl) ..).1

/-- C132: three removals of four boards, in any steps, leave at least one. -/
example (acts : List RvAct) (h : (startsOf acts).length = 3) : 256 ≤ ((Removers.init fourBoards.flatten).run acts).file.length := by
  have := C132_count_partial fourBoards fourBoards_sized acts
  rw [h] at this
  have e : fourBoards.length = 4 := rfl
  omega
/-- C132: a board below those that are removed stays. -/
example : (slots 256 ((Removers.init fourBoards.flatten).run [.start 0 1, .start 1 2, .read 0 100, .read 1 256, .write 1, .write 0]).file)[0]? =
    some (boardOf 1) := by
  refine C132_below_partial fourBoards fourBoards_sized 1 _ ?_ 0 (by decide) _ rfl
  intro a ha p i e
  subst e
  simp only [List.mem_cons, List.not_mem_nil, or_false, RvAct.start.injEq, reduceCtorEq] at ha
  rcases ha with ⟨_, rfl⟩ | ⟨_, rfl⟩ <;> decide

end Verif
