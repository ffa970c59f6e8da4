import Verif.Go.Basic
/-!
# Open files and locks, call by call

The control flow of every function of the repository that opens a file, without the data: each system call is an event with
an outcome, and the outcomes are given by an oracle, so all failures at all points are covered. A conversion of a record that
may report an error is an event too (`convert`); conversions that never fail in the code are included, which only adds
executions. `none` as a result: the call does not return. A handle is the position of the event that opened it.

Go closes a file that nothing refers to any more when the garbage collector happens to find it; that is not modelled.
-/

namespace Verif

inductive Outcome where
  | ok
  | eof
  | fail
  deriving DecidableEq, Repr

inductive Op where
  | open
  | close
  | read
  | write
  | seek
  | truncate
  | stat
  | map
  | unmap
  | lock
  | unlock
  | convert
  deriving DecidableEq, Repr

structure Ev where
  op : Op
  handle : Nat
  out : Outcome
  deriving DecidableEq, Repr

/-- A call: oracle and events so far to result and events after. -/
def Sys (α : Type) : Type := (Nat → Outcome) → List Ev → Option α × List Ev

def Sys.pure (a : α) : Sys α := fun _ t => (some a, t)

def Sys.bind (m : Sys α) (f : α → Sys β) : Sys β := fun w t =>
  match m w t with
  | (some a, t') => f a w t'
  | (none, t') => (none, t')

instance : Monad Sys where
  pure := Sys.pure
  bind := Sys.bind

/-- One system call. -/
def Sys.call (o : Op) (h : Nat) : Sys Outcome := fun w t => (some (w t.length), t ++ [⟨o, h, w t.length⟩])

/-- Open a file. -/
def Sys.openAny : Sys (Option Nat) := fun w t =>
  (some (if w t.length = .ok then some t.length else none), t ++ [⟨.open, t.length, w t.length⟩])

/-- Does not return. -/
def Sys.never : Sys α := fun _ t => (none, t)

/-- `defer`: a call after the rest of the function, whatever its result. -/
def Sys.deferring (o : Op) (h : Nat) (body : Sys α) : Sys α := do
  let r ← body
  let _ ← Sys.call o h
  pure r

open Sys (call openAny never deferring)

/-- The loop of the list readers: read, stop at the end, convert. `checked`: a read error ends the loop. -/
def readTurns (checked : Bool) (h : Nat) : Nat → Sys Bool
  | 0 => never
  | n + 1 => do
    let o ← call .read h
    if o = .eof then pure true
    else if checked ∧ o = .fail then pure false
    else
      let c ← call .convert h
      if c = .fail then pure false else readTurns checked h n

/-- Read to the end (`ioutil.ReadAll`). -/
def slurp (h : Nat) : Nat → Sys Bool
  | 0 => never
  | n + 1 => do
    let o ← call .read h
    if o = .eof then pure true else if o = .fail then pure false else slurp h n

/-- `io.CopyBuffer`. -/
def copyLoop (fo fi : Nat) : Nat → Sys Bool
  | 0 => never
  | n + 1 => do
    let o ← call .read fi
    if o = .eof then pure true
    else if o = .fail then pure false
    else
      let c ← call .write fo
      if c = .fail then pure false else copyLoop fo fi n

/-- The lines that are complete: convert until more input is needed (`eof`). -/
def convertLines (h : Nat) : Nat → Sys Bool
  | 0 => never
  | n + 1 => do
    let c ← call .convert h
    if c = .fail then pure false else if c = .eof then pure true else convertLines h n

/-- `bufio.Scanner`: read, convert the complete lines, and the rest at the end. `fatal`: a read error ends the program. -/
def scanLoop (fatal : Bool) (h : Nat) : Nat → Sys Bool
  | 0 => never
  | n + 1 => do
    let o ← call .read h
    let c ← convertLines h n
    if c = false then pure false
    else if o = .eof then pure true
    else if o = .fail then (if fatal then never else pure true)
    else scanLoop fatal h n

/-- A list reader that opens the file and does not close it. -/
def unclosed (body : Nat → Sys Bool) : Sys Bool := do
  match ← openAny with
  | none => pure false
  | some h => body h

/-- Open, `defer f.Close()`, and go on. -/
def closing (body : Nat → Sys Bool) : Sys Bool := do
  match ← openAny with
  | none => pure false
  | some h => deferring .close h (body h)

/-- `OpenBoardHeaderFile` — /repo/pttbbs/board.go:171-199. -/
def openBoardHeaderFileSys (fuel : Nat) : Sys Bool := unclosed fun h => readTurns false h fuel

/-- `OpenUserecFile` — /repo/pttbbs/passwd.go:203-231. -/
def openUserecFileSys (fuel : Nat) : Sys Bool := unclosed fun h => readTurns false h fuel

/-- `OpenUserInfoCache` — /repo/pttbbs/userinfo.go:140-166. -/
def openUserInfoCacheSys (fuel : Nat) : Sys Bool := unclosed fun h => readTurns true h fuel

/-- `OpenFormosaBBSFileHeaderFile` — /repo/formosabbs/file.go:43-71. -/
def openFormosaSys (fuel : Nat) : Sys Bool := unclosed fun h => readTurns false h fuel

/-- `OpenLoginRecentFile` — /repo/pttbbs/login_recent.go:32-58: `log.Fatal` on a read error. -/
def openLoginRecentSys (fuel : Nat) : Sys Bool := unclosed fun h => scanLoop true h fuel

/-- `OpenBadLoginFile` — /repo/pttbbs/bad_logins.go:86-107. -/
def openBadLoginSys (fuel : Nat) : Sys Bool := unclosed fun h => scanLoop false h fuel

/-- `OpenFileHeaderFile` — /repo/pttbbs/file.go:104-134. -/
def openFileHeaderFileSys (fuel : Nat) : Sys Bool := closing fun h => readTurns false h fuel

/-- `ReadBoardArticleFile` — /repo/pttbbs/pttbbs.go:144-155. -/
def readArticleSys (fuel : Nat) : Sys Bool := closing fun h => slurp h fuel

/-- `OpenFavFile` — /repo/pttbbs/fav.go:195-201, and `ReadUserDraft` — /repo/pttbbs/draft.go:8-13 once the file is there:
`ioutil.ReadFile` opens, asks for the size, reads and closes. -/
def readFileSys (fuel : Nat) : Sys Bool := closing fun h => do
  let _ ← call .stat h
  slurp h fuel

/-- `WriteUserDraft` — /repo/pttbbs/draft.go:19-21: `ioutil.WriteFile` opens, writes and closes. -/
def writeDraftSys : Sys Bool := closing fun h => do
  let o ← call .write h
  pure (o ≠ .fail)

/-- `AppendBoardArticleFile` — /repo/pttbbs/pttbss_append_new_line.go:10-24. -/
def appendArticleSys : Sys Bool := closing fun h => do
  let o ← call .write h
  pure (o ≠ .fail)

/-- `chkIsDir` — /repo/cmd/bbstool/main.go:68-85. -/
def chkIsDirSys : Sys Bool := closing fun h => do
  let o ← call .stat h
  pure (o ≠ .fail)

/-- `filelock.Lock`, `defer filelock.Unlock`, and go on. -/
def locking (h : Nat) (body : Sys Bool) : Sys Bool := do
  let o ← call .lock h
  if o = .fail then pure false else deferring .unlock h body

/-- `WriteBoardArticleFile` — /repo/pttbbs/pttbbs_write_article_connector.go:51-71. -/
def writeArticleSys : Sys Bool := closing fun h => locking h do
  let o ← call .write h
  pure (o ≠ .fail)

/-- `AppendFileHeaderFileRecord` — /repo/pttbbs/file.go:135-163. -/
def appendFileHeaderSys : Sys Bool := closing fun h => locking h do
  let c ← call .convert h
  if c = .fail then pure false
  else
    let o ← call .write h
    pure (o ≠ .fail)

/-- `UpdateFileHeaderFileRecord` — /repo/pttbbs/file.go:165-197. -/
def updateFileHeaderSys : Sys Bool := closing fun h => locking h do
  let c ← call .convert h
  if c = .fail then pure false
  else
    let s ← call .seek h
    if s = .fail then pure false
    else
      let o ← call .write h
      pure (o ≠ .fail)

/-- `AppendBoardHeaderFileRecord` — /repo/pttbbs/board.go:200-226: the unlock at the end is not deferred. -/
def appendBoardHeaderSys : Sys Bool := closing fun h => do
  let l ← call .lock h
  if l = .fail then pure false
  else
    let c ← call .convert h
    if c = .fail then pure false
    else
      let o ← call .write h
      if o = .fail then pure false
      else
        let _ ← call .unlock h
        pure true

/-- `RemoveBoardHeaderFileRecord` — /repo/pttbbs/board.go:228-271: the unlock at the end is not deferred; the error of the
truncation is dropped. -/
def removeBoardHeaderSys (fuel : Nat) : Sys Bool := closing fun fi => do
  let l ← call .lock fi
  if l = .fail then pure false
  else
    closing fun fo => do
      let s ← call .seek fi
      if s = .fail then pure false
      else
        let s ← call .seek fo
        if s = .fail then pure false
        else
          let c ← copyLoop fo fi fuel
          if c = false then pure false
          else
            let s ← call .seek fo
            if s = .fail then pure false
            else
              let _ ← call .truncate fo
              let _ ← call .unlock fi
              pure true

/-- The name loop: a path, then an exclusive open, until one succeeds — /repo/pttbbs/pttbbs_write_article_connector.go:18-34 and
105-116. The path is a `convert` event. -/
def nameLoop (k : Nat → Sys Bool) : Nat → Sys Bool
  | 0 => never
  | n + 1 => do
    let p ← call .convert 0
    if p = .fail then pure false
    else
      match ← openAny with
      | none => nameLoop k n
      | some h => k h

/-- `CreateBoardArticleFilename` — /repo/pttbbs/pttbbs_write_article_connector.go:16-38. -/
def createFilenameSys (fuel : Nat) : Sys Bool :=
  nameLoop (fun h => do
    let _ ← call .close h
    pure true) fuel

/-- `NewArticleRecordWithMap` from the name loop on — /repo/pttbbs/pttbbs_write_article_connector.go:100-136. -/
def newArticleRecordSys (fuel : Nat) : Sys Bool :=
  nameLoop (fun h => deferring .close h (locking h do
    let o ← call .write h
    pure (o ≠ .fail))) fuel

/-- `openFile` — /repo/cache/mmap.go:40-68: the file is kept in the result, but not closed on an error. -/
def openFileSys (h : Nat) : Sys (Option Nat) := do
  let s ← call .stat h
  if s = .fail then pure none
  else
    let m ← call .map h
    if m = .fail then pure none else pure (some h)

/-- `CreateMmap` — /repo/cache/mmap.go:15-28. -/
def createMmapSys : Sys (Option Nat) := do
  match ← openAny with
  | none => pure none
  | some h =>
    let o ← call .truncate h
    if o = .fail then pure none else openFileSys h

/-- `OpenMmap` — /repo/cache/mmap.go:30-39. -/
def openMmapSys : Sys (Option Nat) := do
  match ← openAny with
  | none => pure none
  | some h => openFileSys h

/-- `Mmap.Close` — /repo/cache/mmap.go:74-83: the file is closed even if the mapping cannot be undone. -/
def closeMmapSys (h : Nat) : Sys Bool := do
  let o ← call .unmap h
  let _ ← call .close h
  pure (o ≠ .fail)

end Verif
