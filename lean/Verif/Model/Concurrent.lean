import Verif.Model.Api
/-!
# The calls of `bbs.DB` as sequences of system calls, made by several clients at the same time

The sources are those of `Verif.Model.Api`: /repo/bbs.go:296-516, 700-738 and the connector methods below it. `filelock.Lock` and `Unlock`
(/repo/filelock/filelock.go:5-20) do nothing and are no steps; neither are `Close` and computations without system calls.
-/

namespace Verif

/-- What a client is still going to do: the next system call, and what follows on its result. -/
inductive Job where
  /-- The call has its answer. -/
  | done (r : Res Answer)
  /-- `os.Stat`: did it succeed? -/
  | stat (p : Bytes) (k : Bool → Job)
  /-- `open` for reading. -/
  | openRead (p : Bytes) (k : Res Path → Job)
  /-- `open` with `O_WRONLY`, or with `O_APPEND` too. -/
  | openWrite (p : Bytes) (k : Res Path → Job)
  /-- The same with `O_CREATE`. -/
  | openMake (p : Bytes) (k : Res Path → Job)
  /-- The same with `O_CREATE|O_TRUNC`. -/
  | openTrunc (p : Bytes) (k : Res Path → Job)
  /-- The same with `O_CREATE|O_EXCL`: did it succeed? -/
  | openExcl (p : Bytes) (k : Bool → Job)
  /-- A loop of `read` up to the end of the file, of `size` bytes each, or of any number of bytes if `size` is 0. -/
  | read (l : Path) (size : Nat) (got : List Bytes) (pos : Nat) (k : Res (List Bytes) → Job)
  /-- One `write` at the end of the file. -/
  | append (l : Path) (bs : Bytes) (k : Job)
  /-- One `write` at the start of the file. -/
  | put (l : Path) (bs : Bytes) (k : Job)
  /-- `os.Remove`. -/
  | unlink (p : Bytes) (k : Res Unit → Job)

namespace Job

/-- The result of `open` without creation. `writable`: a directory is refused. -/
def opened (fs : FS) (cwd : Path) (p : Bytes) (writable : Bool) : Res Path := do
  let l ← fs.lookup cwd p
  match fs.get l with
  | none => .err "no such file or directory"
  | some .dir => if writable then .err "is a directory" else .ok l
  | some (.file _) => .ok l

/-- One system call; `n + 1` is the number of bytes that a `read` of any size asks for. Simplification: an open file is known by its place,
so what happens to a file that is removed while it is open is not modelled here (`Disk.step` of `Verif.Model.Inodes` does, and C124 says when it matters); a `write` is not interrupted. -/
def step (cwd : Path) (fs : FS) (n : Nat) : Job → FS × Job
  | .done r => (fs, .done r)
  | .stat p k => (fs, k (fs.statOk cwd p))
  | .openRead p k => (fs, k (opened fs cwd p false))
  | .openWrite p k => (fs, k (opened fs cwd p true))
  | .openMake p k => match fs.openCreate cwd p with
    | .ok (l, _) => (if (fs.get l).isNone then fs.set l (.file []) else fs, k (.ok l))
    | .err e => (fs, k (.err e))
    | .panic => (fs, k .panic)
    | .diverge => (fs, k .diverge)
  | .openTrunc p k => match fs.openCreate cwd p with
    | .ok (l, _) => (fs.set l (.file []), k (.ok l))
    | .err e => (fs, k (.err e))
    | .panic => (fs, k .panic)
    | .diverge => (fs, k .diverge)
  | .openExcl p k => match fs.createExcl cwd p with
    | .ok fs' => (fs', k true)
    | _ => (fs, k false)
  | .read l size got pos k => match fs.get l with
    | some (.file d) =>
      if pos < d.length then
        let bs := slice d pos (pos + if size = 0 then n + 1 else size)
        (fs, .read l size (got ++ [bs]) (pos + bs.length) k)
      else (fs, k (.ok got))
    | some .dir => if size = 0 then (fs, k (.err "is a directory")) else (fs, .read l size (got ++ [[]]) pos k)
    | none => (fs, k (.ok got))
  | .append l bs k => match fs.get l with
    | some (.file d) => (fs.set l (.file (d ++ bs)), k)
    | _ => (fs, k)
  | .put l bs k => match fs.get l with
    | some (.file d) => (fs.set l (.file (writeAt d 0 bs)), k)
    | _ => (fs, k)
  | .unlink p k => match fs.remove cwd p with
    | .ok fs' => (fs', k (.ok ()))
    | .err e => (fs, k (.err e))
    | .panic => (fs, k .panic)
    | .diverge => (fs, k .diverge)

/-- Answer with an error, or go on. -/
def orStop {α : Type} (k : α → Job) : Res α → Job
  | .ok a => k a
  | .err e => .done (.err e)
  | .panic => .done .panic
  | .diverge => .done .diverge

/-- The readers of lists — /repo/pttbbs/file.go:104-133, board.go:171-199, passwd.go:203-231: open, read records of `size` bytes to the end;
a short one is filled up with zero bytes. -/
def readList {α : Type} (p : Bytes) (size : Nat) (parse : Bytes → Res α) (k : List α → Job) : Job :=
  .openRead p (orStop fun l => .read l size [] 0 (orStop fun got => orStop k (got.mapM fun b => parse (padTo size b))))

/-- `ioutil.ReadFile`, and `os.Open` with `ioutil.ReadAll` (/repo/pttbbs/pttbbs.go:139-152). -/
def readWhole (p : Bytes) (k : Bytes → Job) : Job :=
  .openRead p (orStop fun l => .read l 0 [] 0 (orStop fun got => k got.flatten))

/-- `CreateBoardArticleFilename` — /repo/pttbbs/pttbbs_write_article_connector.go:16-39, from round `k` on. -/
def tryNames (db : DB) (board owner date title : Bytes) (draw : Nat → Int × Fin 4096) : Nat → Nat → Job
  | 0, _ => .done .diverge
  | fuel + 1, k =>
    let name := DB.articleName (draw k).1 (draw k).2
    orStop (fun p => .openExcl p fun
      | true => .done (.ok (.record (DB.newArticleRecord name owner date title)))
      | false => tryNames db board owner date title draw fuel (k + 1)) (getBoardArticleFilePath db.home board name)

/-- Each call of the database, as the system calls it makes; the sources are cited at `Call.exec` and the functions used there. -/
def start (db : DB) (c : Codec) : Call → Job
  | .readUsers => orStop (fun p => readList p 512 (Userec.unmarshal c) fun l => .done (.ok (.users l))) (getPasswdsPath db.home)
  | .readFavourites u => orStop (fun p => .stat p fun
      | false => .done (.ok (.favourites []))
      | true => readWhole p fun data => orStop (fun fav => orStop (fun bp => readList bp 256 (BoardHeader.unmarshal c) fun br =>
          orStop (fun folder : FavFolder => .done (.ok (.favourites folder.items))) (fav.folder.resolve br)) (getBoardPath db.home))
            (loadFav c data)) (getUserFavoritePath db.home u)
  | .readBoards => orStop (fun p => readList p 256 (BoardHeader.unmarshal c) fun l => .done (.ok (.boards l))) (getBoardPath db.home)
  | .listArticles b => orStop (fun p => .openRead p fun
      | .err e => .done (if e = "no such file or directory" then .ok (.articles []) else .err e)
      | r => orStop (fun l => .read l 128 [] 0 (orStop fun got =>
          orStop (fun l => .done (.ok (.articles l))) (got.mapM fun b => FileHeader.unmarshal c (padTo 128 b)))) r)
      (getBoardArticlesDirectoryPath db.home b)
  | .listTreasure b ds => orStop (fun p => readList p 128 (FileHeader.unmarshal c) fun l => .done (.ok (.articles l)))
      (getBoardTreasuresDirectoryPath db.home b ds)
  | .readArticle b f => orStop (fun p => readWhole p fun x => .done (.ok (.bytes x))) (getBoardArticleFilePath db.home b f)
  | .readTreasure b ds f => orStop (fun p => readWhole p fun x => .done (.ok (.bytes x))) (getBoardTreasureFilePath db.home b ds f)
  | .addBoard r => orStop (fun p => .openMake p (orStop fun l => .append l (r.marshal c) (.done (.ok .done)))) (getBoardPath db.home)
  | .createArticle b o d t draw fuel => tryNames db b o d t draw fuel 0
  | .addRecord b r => orStop (fun p => .openMake p (orStop fun l => .append l (r.marshal c) (.done (.ok .done))))
      (getBoardArticlesDirectoryPath db.home b)
  | .writeArticle b f x => orStop (fun p => .openMake p (orStop fun l => .put l x (.done (.ok .done)))) (getBoardArticleFilePath db.home b f)
  | .appendArticle b f x => orStop (fun p => .openWrite p (orStop fun l => .append l x (.done (.ok .done))))
      (getBoardArticleFilePath db.home b f)
  | .readDraft u d => orStop (fun p => .stat p fun
      | false => .done (.ok (.bytes []))
      | true => readWhole p fun x => .done (.ok (.bytes x))) (getUserDraftPath db.home u d)
  | .deleteDraft u d => orStop (fun p => .unlink p (orStop fun _ => .done (.ok .done))) (getUserDraftPath db.home u d)
  | .writeDraft u d x => orStop (fun p => .openTrunc p (orStop fun l => .put l x (.done (.ok .done)))) (getUserDraftPath db.home u d)

end Job

/-- A client (a process or a goroutine): the calls it will make, and the one it is making. -/
structure Client where
  todo : List Call
  now : Option Job

/-- What can be seen of the calls: client `p` makes one, or gets an answer. -/
inductive Event where
  | call (p : Nat) (op : Call)
  | ret (p : Nat) (r : Res Answer)

/-- The disk and the clients. -/
structure Site where
  fs : FS
  clients : Nat → Client

/-- Client `p` becomes `x`. -/
def Site.setClient (s : Site) (fs : FS) (p : Nat) (x : Client) : Site := ⟨fs, fun q => if q = p then x else s.clients q⟩

/-- Client `p` takes its next step: it begins a call, makes a system call, or returns. -/
def Site.step (db : DB) (c : Codec) (s : Site) (p n : Nat) : Site × List Event :=
  match s.clients p with
  | ⟨[], none⟩ => (s, [])
  | ⟨op :: rest, none⟩ => (s.setClient s.fs p ⟨rest, some (Job.start db c op)⟩, [.call p op])
  | ⟨todo, some (.done r)⟩ => (s.setClient s.fs p ⟨todo, none⟩, [.ret p r])
  | ⟨todo, some j⟩ =>
    let (fs', j') := j.step db.cwd s.fs n
    (s.setClient fs' p ⟨todo, some j'⟩, [])

/-- A schedule: who moves, and how much a `read` of any size asks for. -/
def Site.run (db : DB) (c : Codec) (s : Site) : List (Nat × Nat) → Site × List Event
  | [] => (s, [])
  | (p, n) :: sched =>
    let (s', es) := s.step db c p n
    let (s'', es') := s'.run db c sched
    (s'', es ++ es')

end Verif
