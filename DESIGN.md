# Formal model of go-bbs in Lean 4 — design

## 1. What is trusted

* Lean 4.33.0's kernel. Theorems use at most the standard axioms `propext`, `Classical.choice`, `Quot.sound`
  (checked with `#print axioms`; section 7 lists the result). No axiom of our own, no `sorry`, no `native_decide`, no `bv_decide`.
* The reading of the Go source: the model is tied to the code by the file:line citation on each definition, and by the vectors of the
  project's own unit tests, all of which are run through the model in `Conformance/` (written by `tools/conform.py` from the Go test files and
  the fixtures under `testcase/`). These are tests of the model and prove no property. All of them pass. Those of the 3484-byte online-user
  record and of the whole 25600-byte user list are evaluated with `#guard`; the others are computed by the kernel.
* The following *environment* models, which are not part of go-bbs:
  * Go semantics of slices, strings, fixed-width integers, `encoding/binary`, `bytes.Split/Trim`, `strings.*`, `fmt.Sprintf`
    for the verbs used (`%s %c %d %3.3X %-*s`), `time.Unix/Parse/Format` for the four layouts used, `bufio.Scanner` (line mode).
  * The OS file interface: `open/read/write/seek/truncate/unlink` on a file system without symbolic links or hard links (C154 has symbolic links, and says when they do not show);
    path resolution is lexical (`"."`, `".."`, repeated `/`); `O_APPEND` writes and `O_CREAT|O_EXCL` opens are atomic.
  * `golang.org/x/text` Big5 codec: up to C92 an abstract pair of functions `enc`, `dec`; each theorem that needs a fact about the codec states
    it as a hypothesis on the concrete string (e.g. `dec (enc t) = t`, no NUL in `enc t`, length) and exhibits an instance. From C93 on the
    encoder and the decoder of the package are modelled byte by byte (`Model/Big5`), with the conversion tables as parameters; the facts about
    the tables that a theorem needs are collected in `Fit`, and a small table that satisfies them is exhibited.
  * Several processes on one file (C13–C15, C99–C101): each `read`, `write`, `ftruncate` and `open` is one step, steps of different processes
    alternate in any order, and a process may die between any two steps or after any number of bytes of a write (C13, C16, C101, C102).
  * System V shared memory and `mmap` (C87–C92): `shmget/shmat/shmdt/shmctl` and file mappings as documented in the manual pages; every call is
    one step. Mappings are page-granular; touching a page behind the end of the file is fatal.
  * The layouts of the C structures in `pttstruct.h` and of the kernel's `shmid64_ds` (x86-64 System V ABI), typed in by hand as lists of
    members; offsets and sizes are computed from them by the alignment rules (C86, C90).
  * `encoding/json` (`MarshalIndent`), the calendar of `time` and `time.RFC3339`, as in Go 1.14 (C104–C106). The zone is any function from
    instants to offsets of less than a day.
  * Go's `flag` package (C73: against an inductive specification of its rules) and `net/http`'s `ServeMux` (Go before 1.22: exact match or longest
    registered prefix, path cleaning with redirect).

## 2. Layout of the Lean library (`lean/Verif`)

| directory | content |
|---|---|
| `Go/` | Go primitives: result type with `ok / err / panic / diverge`, bytes, little-endian integers, slices, split/trim, buffers written by `copy`/`PutUintNN`, lexical paths, file system, scanner, UTF-8, time layouts, a backtracking regexp matcher |
| `Model/` | one file per Go source file; each definition cites `/repo` lines |
| `Conformance/` | the project's unit tests and fixtures, run through the model |
| `Spec/` | small independent specifications used in property statements |
| `Proofs/` | helper lemmas |
| `Props/` | property theorems (`Cnn_…`), refutations (`Cnn_…_refuted`), partial theorems (`Cnn_…_partial`), each with an `example` meeting its hypotheses |

A crash of the Go program (index out of range, nil dereference, division by zero) is the explicit value `Res.panic`; a loop that never ends is
`Res.diverge` (out of every fuel). Nothing is totalised silently.

When the code violates a property, we prove the negation from a concrete witness (`…_refuted`) and keep the strongest positive part
(`…_partial`), and list the defect in section 6.

## 3. Plan per property

| id | model | proof |
|---|---|---|
| C01 | `cstrToBytes` on lists | list induction (`takeWhile/dropWhile`) |
| C02, C04, C05, C06 | record writers = ordered list of buffer writes `copy(ret[a:b], s)` on a zero buffer; readers = slices | one generic theorem: pairwise disjoint writes read back; per record: disjointness of the literal offsets by kernel computation, then field-by-field |
| C03 | same | refutation + partial (C02) |
| C07, C08, C09 | favourites tree, marshal and index-based unmarshal with fuel | mutual induction on trees; well-founded bound `len - index` for termination; panic-freedom by induction on fuel |
| C10, C11, C12 | record files as bytes; 128/256-byte read loop over a read schedule; append / seek+write / shift+truncate | induction on record lists, list slicing algebra |
| C13 | removal as a small-step machine with arbitrary chunk sizes and byte-granular writes | invariant: file = old file with the first k shifted bytes in place |
| C14, C15 | system-call level interleavings of appenders / remover | C14 refuted by a schedule; C15 by induction on schedules |
| C16 | torn record at the tail | refuted by witness; partial: positions before the tear stay readable |
| C17 | read loop driven by a stream of read results | refuted (error result repeats forever → `diverge` at every fuel); partial for data/EOF streams |
| C18–C21 | `fmt.Sprintf` path builders + lexical resolver | list algebra on components; refutations by witnesses (`..`, empty id) |
| C22 | slices as (array, len, cap) over a heap | refutation + partial for full slices |
| C23 | file system keyed by resolved path; DB draft operations | refinement to a map by induction over histories |
| C24, C25 | `O_EXCL` create loop over a stream of (clock, random) draws; concurrent creators | induction; C25 refuted (missing directory diverges at every fuel), partial with fair draws |
| C26, C27 | open/write without/with append | list algebra; C26 refuted by witness + exact effect |
| C28 | create + append + read of record | composition; refuted for the library's own default (zero) time |
| C29 | int8 arithmetic | BitVec; refuted by wrap; partial in range; exact mod-256 law |
| C30, C31 | driver registry with shared connector | refuted / proved by list lemmas on `HasPrefix`/`Split` |
| C32–C35 | DB aggregation over the file system | list algebra; C35 refuted with a 64 KiB line |
| C36 | tree map with 1-based lookup | induction; panic for stale ids refuted |
| C37, C38 | UTF-8 decoding + leftmost-first regexp matcher | induction on the text; C38 refuted |
| C39 | comment regexp + parser | inversion of the matcher; colon case refuted |
| C40, C41 | login text formats, calendar | digit formatting round trip; edge refutations |
| C42–C46 | bit-level model of crypt/*.go on 32-bit words; independent FIPS-46 specification | structural lemmas; linearity on basis vectors + full S-box tables by kernel computation for C45 |
| C47–C49 | bit tests, `strings.Split` | bit lemmas, list induction |
| C50, C51, C52 | offsets as functions of the settings; slices of the segment | arithmetic (`omega`) ; refutations (alignment 0, unset length) |
| C53 | FNV-1a fold | induction on writes |
| C54–C56 | serverlet handlers as pure functions of (user list, request) | case analysis; refutations |
| C57 | argument loop | induction |
| C58 | 248-byte records | as C02/C10 |
| C59 | the whole service as a function of (password file, request) | two-run (non-interference) argument on the handlers |
| C60 | the token claims as issued | exact claims; refutation for every issue time after 1970 |
| C61 | the log lines as part of the handler's result | two-run argument for the typed password; refutation for the stored hash |
| C62 | decoders as the sequence of Go slice expressions with their bounds checks | exact threshold per decoder |
| C63 | path cleaning and `ServeMux` matching on segment lists | case analysis on the segments |
| C64–C66 | the server program as (start-up, requests) over a changing disk | refutations; exact law of start-up |
| C67–C70 | `NewBoardRecord`/`AddBoardRecord` over argument maps and the file system | list algebra on the board file; refutations |
| C71, C72 | article creation from an argument map; the head text | induction over drawn names; unique parsing of the head |
| C73–C82 | `bbstool` as a function of (arguments, environment, disk) to (output, status, disk) | equivalence with the flag rules; exact output of every subcommand |
| C83, C84 | independent description of escape sequences and of comment lines | matcher inversion in both directions |
| C85 | independent sets of accepted time texts | parser inversion |
| C86 | C layout algorithm on member lists | generated field-by-field comparison, for every content |
| C87–C89 | kernel state as a list of segments / files with views | invariant preserved by every call; two-run arguments |
| C90–C92 | buffers of the package against the kernel structure; reads interleaved with stores | exact effect, refutations by witness |
| C93–C98 | the x/text Big5 transformers on bytes, tables as parameters | induction on the text; character-by-character laws; consequences for every record |
| C99 | read-modify-write of one record by many callers, as a list of calls | the count is the sum over a chain of readers; refutation by two callers |
| C100 | the read loop beside a file history | each entry is what its slot held at its read; refutations by witness |
| C101 | truncating open and positioned writes of many processes | invariant on prefixes; refutations by witness |
| C102 | the three calls of posting, cut at any byte | composition of C24, C28 and C26; refutation by witness |
| C103 | histories of fifteen kinds of calls | simulation by a map from objects to contents; injectivity of locations (C18); refutation by witness |
| C104, C105 | the bytes of every answer, read back by an independent RFC 8259 reader | round trip by mutual induction on JSON values; refutations by witness |
| C106 | the calendar of Go's `time`, read back by an independent RFC 3339 reader | linear arithmetic on days and leap years; refutation by a zone with odd seconds |
| C107 | status codes of all answers | case analysis; refutations |
| C108–C110 | every file-opening call as a program over system calls with arbitrary outcomes | rules of Hoare kind for open, close, lock, loops; refutations by a trace |
| C111, C112 | the same programs | success implies a clean trace, by the same rules; a loop that never ends, for every number of turns |
| C113 | the decoder on all byte strings | functional induction; sharpness for every ASCII byte |
| C114 | every call on every disk | case analysis per call; exact conditions for a panic and for a run without end |
| C115 | `OpenUserInfoCache` over arbitrary read results | induction over the pieces; C06 for the records |
| C116 | every call as its system calls; any number of clients; ideal database that carries out each call at one moment | rely–guarantee: what a waiting client may assume, closed under the steps of the others; simulation of the ideal database; refutations by a schedule |
| C117 | clients are trees of calls and answers; races are judged on the ideal database | rely–guarantee per call, simulation; the ideal run is extended by one move per system call that matters |
| C118 | what each client knows of articles (own and unlisted, found in a list); rules on calls | invariants of the ideal database (ownership, listed ⇒ finished), then C117; refutations by a schedule |
| C119 | searches as sequences of calls; growth of the database as an order | each call finds a state of a growing chain; results are monotone in every call, so the result lies between the first and the last state; refutation by a schedule |
| C120 | a call played system call by system call, with the disk to itself | induction on the system calls; number of steps bounded; directories and failing opens included |
| C121 | the disks a stop can leave: before, after, or a beginning of what is written | every job is at most one open and one write; both directions; refutation by a draft that is emptied |
| C122 | the clients of C118 and a stop that cuts any number of writes | the invariants of C118 at any moment; cut writes only add to lists and to listed articles; refutations by a schedule |
| C123 | one run of the command-line tool | by cases on the subcommand and on the first missing argument |
| C124 | clients on a disk whose open files are known by number | simulation between the two models, kept as long as nobody removes what another client has open; C117's condition implies that |
| C125 | clients as in C117, finite and infinite schedules | every job ends within a number of its own steps given a bound on the files it reads; for infinite fair schedules: after finitely many calls and writes only reads are left, and they end |
| C126 | one read of an article list, errors with their whole text | a phrase without `/`, `:` and `n ` at its start lies in the store's name, the board's name or the system's message; then cases on opening |
| C127 | one call on a disk where any system call may find no space | a failed call stops where a machine could have stopped (C121); both directions; later records are read with the bytes in the way; refutations by a draft and by a record |
| C128 | logins, with the whole text of the token | writer and reader of base64url and JSON are inverse; no dot or blank in a part; refutation by two names of one byte each |
| C129 | the clients of C118, or one client, and a disk where every file is as at some moment of its own | each moment is one of C122 or C121; lists and listed articles only grow; refutations by a disk without the text |
| C130 | four loads, each at a time of its own, from a history of the segment | byte by byte; refutation by 255 becoming 256 |
| C131 | the clients of C118, the history cut at any moment | each answered call had its moment between call and answer on the ideal database of C118; from there lists and listed articles only grow |
| C132 | the board list, any number of removal calls with their own positions and buffers, system calls interleaved | schedules refute the claims; invariant: each record has moved down once for each of some calls that have all read beyond it; in turn: simulation by the single removal of C12 |
| C133 | clients on the disk that post in the order of the tool, comment or read, system calls interleaved | two runs, with and without the readers, stay alike; the rest is race-free (C117); invariant on the ideal database: how far each post has got, what each list and article holds, which articles are finished |
| C134 | the same, and the machine stops | the run without readers, paired with the ideal database (C122); what a stop adds to lists and to finished articles |
| C135 | whatever the driver: own paths, stop at the first failure, readers read | a driver is any record of methods on any state; a second driver writes down what the first is asked (C135_tape_changes_nothing), and the claims are about that tape |
| C136 | missing optional interfaces | exact condition for a crash in front of a driver that does not; the tape up to the crash |
| C137 | searches, kept lists | the search equals an independent description in terms of the listing calls; keepers by cases |
| C138 | finalizers of open caches | invariant over runs: a cache whose finalizer is set is mapped where it was opened, apart from all others; refutations are three-step runs |
| C139 | refused system calls | a step relation with refusals; induction over the run with the records read so far and the blank ones put in; exactness by building the run |
| C140 | open files at a time | a bound carried along every prefix of the events of a call, composed over binds; induction over the turns of a process with the files left open so far |
| C141 | memory shared with a decoded record | memory as blocks, messages as slices of a block; what is seen later computed byte by byte; the read loop by induction with one fresh block per round |
| C142 | methods of records | one definition per getter and setter; edits folded by induction to the last value of each field; then C86 for the bytes before and C02, C04, C05 for the bytes after |
| C143 | names of any length | every path in the tree of system calls of a call; a path that fits is never refused, so a limited run is an unlimited one step by step; a refused first call by C139's steps; an invariant on the names on the disk |
| C144 | value of a failed open | the interface value as nil or a typed pointer; cases on the connection string, then C87 for keys and the file table for files |
| C145 | refused system calls, several clients | a tree of system calls that never writes to a place leaves it alone whatever is refused; an adding call is at one of five points; the pieces added and not yet answered carried along the run; whole records by C02-style slots |
| C146 | full disk, several clients | the invariant of C145 with pieces that are whole or a beginning; records of a list split at a whole number of records |
| C147 | accounts of the machine | `Model/Accounts`: owners, modes, masks; `Job.denied` makes refusals of `Job.stepUnder` out of them, `Job.permAfter` gives modes to what is made. All clients, calls and interleavings. |
| C148 | drafts and other accounts | The same model: one account saves, another reads. |
| C149 | several goroutines in one process | `RaceState.step`: the driver map with the runtime's writing flag, the connector's string as two words in a flat memory, any number of goroutines with word-sized steps and either order of the words. |
| C150 | lines of the log | `logText`: entries of stamp, message, newline; the messages of the service's handlers (`requestLog`) and the paths of the calls (`Call.log`). |
| C151 | articles in the log | `Logged`: the comment searches with the texts they print; `printBytes` is what is printed of a byte slice. |
| C152 | members of the three structures, placed by the alignment rules of each system | exact effect by computing the places, refutation by witness |
| C153 | state of the random generator (seed, numbers taken) | `createNameFrom`, `mapArticleFrom`: the models of C25 and C71 with the generator threaded through; induction over the rounds |
| C154 | disk with symbolic links, one name of the home directory per client | the walk with links splits at the home directory (`follow_append`); jobs that differ in the home prefix only (`JobsAlike`) make the same steps |
| C155 | disk of which files were stored in parts | a file that is only added to has the same first bytes at all moments (`moment_added`), so bytes of different moments agree |

Not expressible in this model (not claimed): real scheduling fairness of goroutines, the numbers of ECDSA signatures, HTTP parsing,
the weak memory order of concurrent loads and stores.

## 4. What is modelled

| Go file | modelled definitions | Lean module |
|---|---|---|
| `cstr.go` | `CstrToBytes`, `CstrToString` | `Model/Cstr` |
| `ansi.go`, `user_comment_record.go` | the regular expressions (as data for the matcher), `FilterStringANSI`, the comment parser, every accessor | `Model/Comment` |
| `user_article_record.go`, `user_draft.go` | the record built by the searches; a draft is its bytes | `Model/Lists`, `Model/DB` |
| `bbs.go` | driver registry, `Open`, all read/write/list/draft methods; the same in front of any driver | `Model/DB`, `Model/Lists`, `Model/Connector`, `Model/Driver` |
| `pttbbs/file.go` | record layout, reader and writer, list reader, append, update, remove | `Model/FileHeader`, `Model/RecordFile` |
| `pttbbs/board.go` | record layout, reader and writer, flags, moderators, list reader, append, remove | `Model/Board`, `Model/RecordFile`, `Model/Settings` |
| `pttbbs/passwd.go` | record layout, reader and writer, list reader, `VerifyPassword` | `Model/Userec`, `Model/Crypt` |
| `pttbbs/userinfo.go` | record layout, reader and writer | `Model/UserInfo` |
| `pttbbs/fav.go` | tree, reader, writer, counters | `Model/Fav` |
| `pttbbs/path.go`, `pttbbs/draft.go` | every path builder (treasure paths with Go slice sharing) | `Model/Path`, `Model/Treasure` |
| `pttbbs/pttbbs*.go` | connector methods: file creation, article write/append, favourites resolution, record factories | `Model/DB`, `Model/Connector` |
| `pttbbs/bad_logins.go`, `pttbbs/login_recent.go` | line parsers and writers, file readers | `Model/Logins` |
| `pttbbs/usersettings.go`, `pttbbs/const.go` | lookups and the flag table | `Model/Settings` |
| `pttbbs/cache.go`, `cache/cache.go` | offsets, accessors, connection strings | `Model/Cache` |
| `pttbbs/internal/fnv/fnv.go` | all | `Model/Fnv` |
| `filelock/filelock.go` | all (no-ops) | used in `Model/RecordFile`, `Model/Interleave` |
| `big5.go` | both conversions, over the x/text transformers | `Model/Big5` |
| `pttbbs/file.go`, `pttbbs/board.go`, `pttbbs/pttbbs.go` (drafts) | the system calls of reading, updating and saving, of several processes | `Model/Interleave` |
| `cmd/bbstool/articles.go` | posting up to a crash | `Model/PostCrash` |
| `bbs.go` | the calls of the library, one step each | `Model/Api` |
| `crypt/*.go` | all, tables included | `Model/Crypt`, `Model/CryptTables` |
| `formosabbs/file.go` | all | `Model/Formosa` |
| `serverlet/*.go` | routing, all registered handlers, token issue, permission check | `Model/Server` |
| `serverlet/route_*.go` (bodies), Go `encoding/json`, `time` | status codes, `MarshalIndent`, RFC 3339 | `Model/Answer`, `Go/Json`, `Go/Calendar` |
| every function that opens a file (`pttbbs`, `formosabbs`, `cache/mmap.go`, `bbstool`) | control flow over system calls: open, close, lock, read, write, errors | `Model/Handles` |
| `OpenUserInfoCache` (`pttbbs/userinfo.go`) | the read loop over arbitrary read results | `Model/OnlineFile` |
| the calls of `bbs.DB` as sequences of system calls, several clients at a time | an open file is known by its place (C124: this does not matter unless a file is removed while another client has it open); one `write` is atomic; locks are no-ops as in the code | `Model/Concurrent` |
| the same calls on a disk with numbered files | no links, no renames; the numbers of removed files are not used again | `Model/Inodes` |
| clients that decide what to call next from the answers | a client is a tree of calls; time and random numbers are drawn beforehand | `Model/Script` |
| the searches over all boards | as sequences of calls that other clients' calls may come between (C119); run alone they are the searches of `Model/Lists`, which is proved | `Model/Search` |
| one call alone; a machine that stops in a call | a stopped `write` has stored its first bytes; earlier system calls are on the disk | `Model/Alone` |
| the power fails | every file and name is as it was at some moment since the disk was stored, each at its own; no file is a mixture of several moments | `Model/PowerLoss` |
| a number is read from shared memory | its bytes are loaded in any order, several or one at a time, each at a moment of its own | `Model/LiveNumbers` |
| a machine that stops while several clients use the disk | the same; cut writes take place in any order | `Model/Outage` |
| `serverlet/main.go` | start-up, loading of the lists | `Model/ServerMain` |
| `pttbbs/pttbbs_write_*_connector.go` | records made from argument maps | `Model/Factory` |
| `cmd/bbstool/main.go`, `cmd/bbstool/articles.go` | `parseArgsToMap`, the options, every subcommand with its output and exit status | `Model/Tool`, `Model/ToolMain` |
| `cache/systemvshm*.go`, `cache/mmap*.go`, `cache/cache.go`, `pttbbs/cmd/main.go` | every function, over the kernel model | `Model/SharedMem` |

Simplifications are stated at each definition. The main ones: wall-clock times are Unix seconds; error values are their message text;
goroutine schedules are lists of system calls; `defer f.Close()` is invisible; a file system has no symbolic links (but see C154) or permissions,
and no limits on the lengths of names and paths (`NAME_MAX`, `PATH_MAX`; C143 has them, and says when they do not show) or on space, except where a theorem is about running out of it.

## 5. What is not modelled

* The contents of the Big5 conversion tables of `golang.org/x/text` (about 14000 entries): parameters (section 1).
* HTTP encodings: requests are already parsed, answers are status codes and bodies. The ECDSA signature is an abstract function from texts to
  pairs of numbers (`Model/Token`); the rest of a token is written byte by byte.
* `NewFileHeader`-style helpers without logic and `String()` debug output not printed by `bbstool`.

## 6. Defects found in the code

Each is proved by a `…_refuted` theorem from a concrete witness; the `…_partial`/`…_exact` theorem beside it says what holds.

| id | property | finding |
|---|---|---|
| C03 | Saving an article record keeps its money, announcement uid, vote limits and file mode | The code violates the property: MarshalToByte never writes money/uid/vote limits/mode. Refuted; exact effect and the zero case proved. |
| C05 | User record survives a save/load cycle in every field | Role is not written by MarshalBinary: full claim refuted, exact effect proved (all fields but role). |
| C06 | Online-user record survives a save/load cycle in every field | Overlapping offsets: full claim refuted, exact effect proved. |
| C08 | Loading a favourites file never crashes and always terminates | OpenFavFile returns a tree or an error for every file (C08_open_returns), whatever memory lies behind its content (C08_memory). UnmarshalFavFile itself panics on a slice with capacity under two (C08_fav_load_returns_refuted), exactly then (C08_slice_panics_iff); the recursion budget is irrelevant (C08_fav_load_returns_partial). |
| C09 | Re-saving a loaded favourites file is stable | Refuted for the codec the code uses: a title that ends in half a character changes on saving; it settles after two rounds. Exact law for all codecs, unchanged iff each title survives; partial for Big5 titles. Total counters proved for all codecs; per-kind counters refuted. |
| C11 | Updating an article record touches only its own slot | In-range updates change exactly one slot; the full claim is refuted (a distant index overwrites through wrap-around, and an index past the end extends the file); exact effect for an index past the end proved. |
| C12 | Removing a board record removes exactly that record | Any chunking, completion always possible, bounded number of calls; with an index at or beyond the end the file is zero-extended (refuted, exact effect proved). |
| C14 | Concurrent modifications of the board list are serialised by the file lock | A no-op lock: an append between end-of-file and truncation is lost (refuted); exact set of surviving records for every interleaving, and the serial result when the window is empty. C14_exact: the result is serial exactly if nothing was appended in that window. |
| C16 | A torn append does not corrupt records appended later | A torn append misaligns later records (refuted); the records before the tear stay readable. Exactly what is read after a tear within a record, whatever follows: C16_torn_exact, C16_torn_count. |
| C17 | Reading a record file always terminates | A read error is swallowed and the loop never ends (refuted for every fuel); termination and result for data/EOF sources. |
| C19 | No caller-supplied id can reach a file outside BBSHOME | Refuted: a name with '/' and '..' reaches any path at all (C19_any_target). Partial: names without '..' stay inside. C19_exact: an object stays inside for every home directory iff no step of its path leads above its start and it does not end there. |
| C21 | Path construction never crashes | Refuted: an empty board or user id panics; C21_panics_iff is the exact law. |
| C22 | Building a treasure path does not modify the caller's data | Refuted: append into the caller's spare capacity overwrites its memory; C22_effect is the exact law, C22_exact says exactly when the caller notices nothing, partial for slices with no spare capacity. |
| C25 | Creating an article always returns | Refuted: a missing board directory loops for ever (all fuels), an empty board id panics; partial: terminates within k+1 rounds when round k draws a free name. |
| C26 | Writing an article replaces its content | Refuted: the file is not truncated; C26_write_effect is the exact law; it reads back as written iff the old content is not longer (C26_exact). |
| C28 | A freshly created and added article reads back as created | Refuted: the zero modification time wraps to 2288912640 in the 32-bit field; C28_add_effect is the exact law; partial: every other field, and the time when it fits. |
| C29 | Recommendation score accumulates correctly | int8 wrap-around refutes the full claim; exact mod-256 law; the true total is shown iff it fits in a signed byte (C29_exact). |
| C30 | Independently opened databases are independent | Refuted: all databases of a driver share one connector; C30_second_open_takes_over is the exact effect; partial: any history in which nobody opens over the same connector. C30_exact: the first home stays exactly if the second goes over another connector or names the same home. |
| C32 | A user's article list is complete and sound | Refuted: a board slot with an empty name panics the search (C32_empty_name_panics in general); partial: all other board lists and indexes, from the bytes on disk. The outcome in every case: C32_exact. |
| C33 | A user's comment list is complete and sound | Refuted: a missing article file, a comment-like line with an impossible time, or a nameless board makes the whole list fail; partial: complete and sound list from the bytes on disk otherwise. When it succeeds and what it lists, exactly: C33_exact. |
| C35 | Long lines do not hide later comments | Refuted: a line of 64 KiB hides what follows without an error; C35_exact says which comments are reported, C35_all_exact when these are all. |
| C36 | Favourites resolve to board names | Refuted: a stale board number panics; C36_exact is the exact law for every tree; partial: what a caller sees for every saved plain tree. |
| C38 | ANSI filtering is idempotent | Refuted by ESC ESC[m [m; C38_idempotent_exact is the exact condition; C38_settles: as many passes as the text is long always suffice; partial also for plain results and whole coloured texts. |
| C39 | A well-formed comment line is parsed into its parts | Refuted: 'a:b' becomes 'ab:'; C39_parse_exact is the law for every text of a well-formed line (C84 for every line); partial: texts without a colon. |
| C40 | Bad-login lines survive a save/load cycle | Refuted: one-letter ids, hosts starting with ?/@ and ids with multi-byte characters do not survive; C40_exact is the exact law for every attempt; partial: ASCII ids of 2-12 bytes; C40_file for whole files of any length, C40_recent for recent logins. |
| C41 | Parsing a login log never crashes | Refuted: the empty line and lines cut off at the time crash the bad-login parser; C41_exact and C41_file_exact are the exact laws; recent-login lines never crash, its file reader ends the process on a 64 KiB line (exact law). |
| C42 | Password hash has the crypt(3) shape | Exact law proved for every key and every salt of two ASCII bytes. The claim fails only for a NUL in the salt, which the code replaces by 'A' (C42_nul_salt_refuted). |
| C46 | Password verification never crashes | False of the code: a stored hash of fewer than two bytes or with a non-ASCII byte among the first two makes VerifyPassword panic. The exact condition is proved (C46_exact). |
| C51 | Reading the cache never crashes for users in range | False of the code: reading an online record always ends in a panic because the record length is never set (C51_user_info_never). Ids, money and version are read exactly as laid out (C51_reads_partial). |
| C52 | Cache connection string selects the right back-end | False of the code for a file name with a colon, which is cut at the colon. The exact rule is proved (C52_exact). |
| C54 | A token is issued only to the owner of the password | Issuing is proved exactly (C54_issued, C54_only_here). The refusal half is false when the stored hash is malformed, for instance an unused slot: the handler panics (C54_refusal_refuted); proved otherwise. The outcome in every case: C54_exact; when it crashes: C54_crash_exact. |
| C55 | Protected user endpoints require permission | False of the code: checkTokenPermission always succeeds, so the token is ignored (C55_token_ignored) and anyone reads anyone's data (C55_anyone). What holds is that the data are those of the user named in the path. C55_served says exactly which requests get data, C55_exact which policies are kept: those that permit everybody everything. |
| C56 | No request path can crash the server | False of the code: a login for a user with a malformed hash panics (net/http then drops the connection). This is proved to be the only case (C56_exact). |
| C60 | An issued token can be used for half an hour | False of the code: the expiry is 1800 seconds after 1970 instead of after the moment of issue. C60_exact: accepted for half an hour exactly if issued before 1970, and accepted at all exactly if issued in its first half hour or before. |
| C61 | Login secrets stay out of the log | False of the code: the record and its hash are printed before the password is checked. The typed password is not logged. C61_exact: the log tells exactly the hash of the first user with the name given, and no other secret. |
| C62 | Decoding and encoding records never crash | False of the code: no decoder checks the length. The exact length and capacity needed by each decoder are proved (C62_exact); whole records and all encoders are safe. |
| C64 | Hidden boards are not listed to anonymous visitors | False of the code: the whole board file is sent to everyone (C64_everyone, C64_refuted). What holds is that nothing but that list is sent (C64_partial). C64_exact: the claim holds of a board file exactly if it has no hidden board. |
| C65 | The service answers from the files as they are now | False of the code: both lists are loaded once at the start (C65_refuted), so an old password goes on working (C65_old_password). The exact law is C65_exact; C65_partial covers unchanged lists. |
| C66 | The service comes up whatever is on the disk | False of the code only when a directory stands in the place of a list: the read loop never ends (C66_refuted). C66_exact is the exact law; a missing password file leaves a service without users (C66_no_file). |
| C67 | A new board has an id and a title | Exactly characterised (C67_exact, C67_errors). The part 'not empty' is refuted: empty strings are accepted (C67_refuted). |
| C68 | An added board appears at the end of the board list as it was made | C68_exact: every record, list = old ++ [record as stored], one location changed. 'As it was made' refuted: zero times come back as 2042 and unset links as [0,0]; C68_reads_back_partial gives the exact record. |
| C69 | Board ids stay different | Refuted; C69_unique_partial gives the exact condition: the stored (cut to 13 bytes) id is not listed. |
| C70 | One can post in a board that was just added | Refuted: no directory is made, so name drawing never ends. C70_usable_partial and C70_exact: it ends iff the directory of the board was there before and one of the names to be drawn was free then. |
| C71 | Making an article from an argument map gives it a fresh file and ends | C71_created and C71_errors in full; termination refuted (the clock is read once, so only 4096 names exist) with the exact condition in C71_returns_partial. |
| C72 | The first lines of an article tell who wrote what where and when | Refuted (a title may contain the time line); C72_head_partial: recoverable if the author has no blank and board and title no line end. C72_exact: recoverable exactly if the words for the board stand once in author and board, those for the title once in board and title, and those for the time once in title and time. |
| C74 | The tool works on the directory it was given | Refuted for directories with a question mark (the checked and the used directory differ); C74_exact is the exact description. |
| C76 | The exit status of the tool tells whether it succeeded | Refuted: complaints are printed and the status is 0; C76_status_partial: status 2 iff the options are wrong, otherwise 0 unless it crashes or hangs. |
| C77 | No command line makes the tool crash | Refuted; C77_crash_exact gives the exact condition for every subcommand. |
| C78 | The tool lists the articles of a board, or says why it cannot | C78_list_exact in full; that errors are told is refuted (the error is dropped). |
| C81 | The tool shows the comments of a user on the board asked for | Refuted (--board is ignored); C81_comments_exact is what is printed. |
| C82 | Posting with the tool ends | Refuted (a board without directory); C82_ends_exact is the exact condition. |
| C85 | Which texts count as times | Exact set of accepted texts and what each gives, for all three layouts. Uniqueness is refuted: spacing, one-digit hours, fractions of a second, letter case and a contradicting day of the week are all accepted. |
| C86 | Records are read where the C compiler put them | Refuted for all four records; the exact theorems say, for every content, which members are read as the C program sees them and what is read instead. Strings trimmed at both ends pick up leftovers behind the terminator; times and money lose their sign; an angel of 13 letters is read with the padding byte behind it; the last 13 members of an online user are read 1, 7 or 9 bytes too early. The partial theorems give the full claim under those conditions. |
| C87 | A System V key names exactly one segment | Open, create and remove are exact for every state. Refuted: keys that differ by 2^32 are one key, and a segment made with key 0 (or a multiple of 2^32) can never be opened or removed again and stays for ever. The partial theorems give the claims for other keys. System calls are an environment model; each call of the package is one step. |
| C88 | Open views of shared memory show the stores, and nothing else, until they are closed | Proved except for closing twice, which is refuted: the address may belong to another view by then. Partial: addresses not in use again. |
| C89 | Mapped files | Exact for opening, creating, storing, removing. Refuted: a creation that fails has emptied the file; creating a file again makes accesses to old views fatal. Partial: nobody creates the file again. |
| C90 | The state buffer holds what the kernel writes | The length is right; the claim about memory is refuted: the kernel writes 112 bytes into a buffer of 104. The exact theorem names the bytes changed. The kernel's structure is trusted input. |
| C91 | A cache opened by a connection string shows the memory it names, live | Opening and live reading are proved; the sample program is refuted: it always prints an error or divides by zero. |
| C92 | A user id read beside a writer | Refuted: the position of the NUL and the bytes are read at different times. Partial: nobody writes to the entry meanwhile; always: length and single bytes. For one change at any time C92_one_change says exactly what is read, and C92_new, C92_between, C92_halves, C92_old say when it is the new id, the new entry at the old length, two halves, or the old id. For any number of changes at any times C92_exact says which strings can be read and which cannot. |
| C94 | Encoding loses only the characters Big5 does not have | Refuted for all tables that lack some character: everything behind the first such character or invalid byte is dropped (exact law). Partial: texts of Big5 characters. |
| C95 | Big5 text survives conversion there and back | Texts survive. The claim for bytes is refuted; exactly the Big5 forms of texts survive, and everything from the first undecodable byte on is dropped. |
| C96 | A text cut at the end of a field ends with a whole character | Refuted: a cut inside a character leaves U+FFFD. Exact law for all texts and lengths; partial when the boundary is between characters. |
| C97 | Titles in records, and what a recommendation does to them | Title contents are exact. The recommendation claim is refuted; exact law, and partial for titles that are the Big5 form of a text. |
| C98 | Texts of Big5 characters survive in records and articles | Refuted twice: id, password, host, angel and chat name are encoded but not decoded, so a Chinese chat name comes back as raw Big5 bytes; and an article is shown only up to the first character that Big5 lacks. Exact laws; partial for ASCII in those fields and for texts of Big5 characters. |
| C99 | Pushes of several callers on one article are all counted | The code violates the property: the lock is empty and the update writes back what was read earlier. Refuted for two callers. Exact: every schedule behaves as a shared count that callers look at and store; the final count is the old one plus the amounts of some callers, always with the last writer, and every such choice happens. Other records keep their bytes, the other fields keep their values. All are counted when the callers take turns. |
| C100 | A reader sees a list that existed | The code violates the property: the list is read record by record without a lock. Refuted for updates (a list that never existed) and for a board removal (a board that stays is missing). Exact: entry i is what slot i held at read number i; with appends only, the result is the list at the last read; during a removal each entry is the first bytes of the next board and the rest of its own; a half-written record is taken for a whole one. A reader that appenders stay ahead of does not return. |
| C101 | A draft being saved is the old text or the new one | The code violates the property: the file is truncated before it is written. Refuted for one and for two writers. Exact for one writer: the old text, or the first bytes of the new one, and every such beginning is a crash point (C101_draft_partial, C101_every_prefix). Exact for several that have all finished (C101_mix_exact): one of them was the last to open the draft, the others had written some bytes by then, and at every place stands what any of those who still had that byte to write wrote, or NUL; every such mixture is left by some interleaving. At any moment every byte is one that some process writes there, or NUL (C101_mix_bytes, C101_hole); a save that nobody disturbs after it opened the file leaves its text (C101_mix_partial). |
| C102 | A listed article is complete, wherever the posting tool dies | The code violates the property: the record is put in the list before the text is written. Refuted (C102_listed_refuted). Exact for every crash point: what the file and the list hold, and that nothing else has changed (C102_crash_exact, C102_points); a whole record has a file with a beginning of the text; a torn record lists a cut name (C102_torn). |
| C103 | The database behaves as a map from objects to contents | Refuted for reserved names: writing the article .DIR replaces the list of the board (C103_forged says with what). C103_exact has the law for all histories whose names are single path components, reserved or not, in directories that exist: the calls answer as the map from the objects that are meant does. |
| C104 | The body of every answer says exactly what the record says | Every body is valid UTF-8 and JSON and reads back as the value (C104_read_back, C104_boards, C104_user, C104_loaded_boards, C104_errors). Exactness for a user record refuted: name and address are not decoded, so bytes that are no UTF-8 are written as U+FFFD; partial for names and addresses that are text. Exactly when the record is told faithfully: C104_record_exact. |
| C105 | The list of boards tells the title and the moderators of each board | Refuted: the two fields are not exported, so the list does not depend on them (C105_hidden). Everything else can be told from the list. |
| C106 | A time in an answer denotes the instant that is stored | Refuted for zones with odd seconds, which RFC 3339 cannot express; exact law for all zones, partial for zones of whole minutes. A time can be written iff its year has four digits. |
| C107 | Status 200 means that the request was served | Refuted twice: a refused login and a wrong method are answered with status 200. Exact characterisation; nobody is ever answered 401; an unknown user is answered 500. |
| C108 | Every call closes the files it opened | Refuted: six list readers never close their file, and a mapped file stays open when it cannot be sized or mapped. Exact law for these (the file is open afterwards iff it could be opened; n calls leave n files); all other calls close what they open whatever fails, and closing a mapped file gives it back. The finaliser that the Go runtime may run later is not part of the model. |
| C109 | Every lock taken is given back | Refuted: a failed write while a board is added, or a failed step while one is removed, returns without the unlock. C109_add_exact and C109_remove_exact: the lock stays iff the file was opened and locked and the call failed. All other calls give it back in every case. |
| C110 | Writes happen under a lock, and only on files that are open | Refuted: saving a draft and appending to an article write without a lock (exact: one such write iff the file opens). Proved for all others; proved for all calls: no operation on a file that is not open, no unlock without a lock. |
| C111 | Success means that nothing failed | Refuted for six calls: five list readers ignore read errors and the removal of a board ignores a failed truncation. Proved for all others; for all calls, success means that no lock, seek, conversion or write failed. C111_exact: what may have failed is a read of the five readers or the cut of a removal, and nothing else. |
| C112 | Reading what cannot be read ends with an error | Refuted: the listings of boards, users and articles (both formats) never return on a path that opens but does not read, such as a directory. Exact; the online list and the article reader return an error. |
| C114 | Every call of the database returns | False of the code: an empty user or board name indexes an empty string and panics; favourites naming a missing board panic; a directory in the place of a list is read forever. Proved exactly: those are the only crashes and the only calls that do not return (creating an article may also fail to find a name, see C25). |
| C115 | A file of online records is read back record by record | False of the code because C06 is: three game scores come back as those of other games. Everything else is proved: number and order of records, the zero-filled tail, and that a failing read gives an error and no records (unlike the other readers, see C17). C115_exact: the records come back exactly if those scores agree. |
| C116 | Calls made at the same time give the answers of some order, one at a time | Proved for all clients, calls and interleavings of system calls when whatever one client changes and another touches is only added to (articles by appending, lists of whole records, a board list that exists): each call takes effect at one moment, a sequential order with the same answers and contents exists, and a client left alone gets its answer. Refuted, one witness each, for drafts that are written, drafts that are deleted, articles that are overwritten, the first board, and lists with an incomplete record: the locks do nothing and files are opened, truncated and written in separate steps. |
| C117 | Clients whose calls do not race cannot tell that a call is several system calls | Proved for all scripts and interleavings. A race is judged on the ideal database only (one call at a time); drafts, board lists that do not exist yet and overwritten articles make races, adding to articles and to lists of whole records does not. Without the condition the claim is refuted. |
| C118 | Posting, reading and commenting at the same time: nothing is lost, doubled or seen unfinished | Proved when a post creates the file, writes the text and then adds the record, and for all clients that keep to rules stated in Spec/Decent (read and add to articles found in a list, write to articles of one's own that are in no list, keep to one's own drafts). Refuted for the order used by the command-line tool (file, record, text): a reader gets an empty article, and an accepted comment is overwritten by the text. A listed article without its text is also seen between two calls of the tool (C118_tool_posts_arrive_refuted); C133 says what holds of its order. |
| C119 | A search made while others post and comment finds what was there before and nothing that is not there afterwards | Proved for articles in full. Proved for comments when articles, texts and comments end with a newline (C119_comments_partial); refuted without that condition: a comment added to an unfinished line merges with the comment in that line. Clients keep to the rules of Spec/Decent, or are posters (file, text, record) and guests. |
| C121 | What the disk holds if the machine stops in the middle of a call | Proved in full and exactly: a disk can be left if and only if it is one of those described (C121_left, C121_exact). That every call has happened or not is refuted (C121_atomic_refuted): a draft saved again is emptied first, so both texts can be lost (C121_draft_lost). Simplification: what earlier system calls wrote is on the disk. |
| C122 | The machine stops while clients post, read and comment: what was finished is there | Proved when a post creates the file, writes the text and then adds the record (C122_posts_survive, C122_comments_survive), and that clients can go on after a stop between system calls (C122_starts_again, C122_lives). Refuted for the order in which the tool posts (C122_tool_refuted): a listed article without its text. Going on is refuted when a record is torn (C122_torn_refuted); C16 says what happens then. Simplification: what earlier system calls wrote is on the disk. C134 says what holds of the tool's order. |
| C125 | Every call ends, whatever the other clients do | Refuted (C125_refuted, C125_chased: for every existing list): readers read to an end that moves. C125_bounded_partial gives the number of steps for every call, C125_writers and C125_create what does not depend on sizes, C125_all_end the end of all scripts under every fair schedule without end. Assumed for lists: no directory has the name of a list (C114: such a list is read for ever). |
| C126 | A list that cannot be opened is not taken for an empty one | The code searches the whole text of the error, which contains the path. A store directory or a board name with the phrase 'no such file or directory' makes every failure to open a list look like a missing list (C126_refuted; the example has such a board name). C126_exact says exactly when the answer is an empty list. C126_partial: without the phrase in the two names an empty answer is true and every other error is told. C126_agrees_partial: there the reader is the one the other theorems are about. |
| C127 | A call that fails for want of space has changed nothing | Refuted twice: a draft that is saved again is gone (C127_refuted, C127_draft_lost: for every existing draft), and after a record of which some bytes were stored every later record is read shifted (C127_again_refuted, C127_again_exact). C127_exact gives exactly the disks on which a call can fail; C127_success: success means that everything was done; C127_own_file_partial: only the call's own file can differ. Claiming a name on a full disk does not return (C127_create, C127_create_hangs). |
| C128 | A token says who has logged in, and nobody else | Refuted for names that are no UTF-8: the JSON encoder writes U+FFFD for every such byte, so the users A4 and A5 get tokens with the same claims (C128_names_refuted). Exact law for all names; partial for valid UTF-8. What a token says, that it has one meaning and one spelling, and that it survives the body and the header are proved in full. If signing fails the answer is status 200 with an empty token (C128_unsigned). |
| C129 | What was answered survives a power failure | Refuted: no file is ever synced, so an answered post may be gone (C129_refuted), and even if its record is stored its text may not be (C129_texts_refuted), although C122 holds when only the program stops. Partial: every list has its old records and then whole records of some posts, and stored articles keep their texts (C129_partial); whatever is only added to is between what was stored and what was answered (C129_added). If the disk is stored before each call, the power leaves exactly what a stop of the machine leaves, C121 (C129_one_call). Simplification: one file is not a mixture of several moments. |
| C130 | A number read from the cache beside a writer is one that stood there | Refuted: the four bytes of a number may be loaded one by one, so 255 becoming 256 may be read as 511 or as 0 (C130_torn_refuted). Proved: byte k of the number read is byte k of the number that stood there when it was loaded; changes of a single byte, in particular numbers that stay below 256, and a single load of all bytes give a number that stood there; the sign is right; without a writer it is the number of the cache. |
| C132 | Boards removed at the same time | False of the code: the lock is empty. With two removals at once a board that nobody named is lost and a removed one is back (C132_exact_refuted, C132_others_refuted, C132_named_refuted); with three a blank board appears (C132_blank_refuted). What every interleaving of any number of removals and additions keeps is proved: whole entries only, each blank, added, or from the list and at most one place lower for each removal begun (C132_near_partial); the list is shorter by at most one entry for each removal begun and, with valid indices and no additions, by at least one once any has returned (C132_count_partial, C132_shorter_partial); boards before all the removed ones stay (C132_below_partial); removals in turn are exact (C132_in_turn_partial). What somebody reading at the same time can get: C132_readers_partial. |
| C135 | In front of any driver the database uses only the driver's own paths and stops at the first failure | Own paths, stopping and reading are proved for every driver (C135_own_paths, C135_stops_partial, C135_readers); writing down what is asked changes nothing (C135_tape_changes_nothing). That a success has had no failing method is false (C135_refuted): reading the list of a board with an error that contains "no such file or directory" counts as an empty list; this is the only exception (C135_success_partial). In front of pttbbs the calls are those of the other files of the model (C135_pttbbs, C135_pttbbs_searches); a foreign record is refused (C135_foreign), a nil record panics after the file is made (C135_null). |
| C136 | A driver without an optional interface does not crash the database | False of the code (C136_refuted): most methods assert the interface without looking. Exactly when a call crashes is C136_crash_exact; it has changed nothing by then (C136_nothing_done); with all interfaces and a draft that is not nil nothing crashes (C136_partial); the two methods that look return an error (C136_checked). |
| C137 | Searches for a user's articles and comments find what is there, with and without kept lists | Without a kept list proved (C137_articles_exact, C137_comments_exact). A kept list that is not empty is given out as it is, nothing else is asked (C137_kept_articles, C137_kept_comments), so one that is out of date is a wrong answer (C137_refuted); an empty one, or one that is what the search finds, makes no difference (C137_faithful_articles, C137_faithful_comments). |
| C138 | Memory obtained from an open cache stays mapped until the program closes that cache | Violated: the slice from Bytes points outside the Go heap and does not keep the cache reachable, so after the last use of the cache the finalizer may unmap memory that is still read (C138_stays_refuted); Money makes its last use of the cache before it reads the bytes and may fault (C138_money_refuted) or read another cache's bytes (C138_money_other); closing one cache twice can unmap another (C138_twice_refuted). Proved: while the program still refers to a cache and closes nothing twice the memory stays the same (C138_stays_partial, C138_money_partial); the runtime releases a dropped cache exactly once and touches no other (C138_collected) and never one the program has closed (C138_closed_left). |
| C139 | A call whose system call is refused says so and changes nothing | Violated: ReadUserDraft and ReadUserFavoriteRecordsFile take every error of Stat for a missing file, so a draft that cannot be looked at is answered as an empty one (C139_draft_refuted, C139_draft_empty); the readers of lists look for the end of the file only and take the buffer for a record after any other error, so a read that is refused once becomes a blank user, board or article (C139_list_refuted; C139_lists_exact: the possible answers are exactly the right list with blank records put in anywhere), favourites then get the names of other boards (C139_favourites), and a list that stays unreadable is never answered (C139_endless); claiming a name never answers with a refusal and goes on for ever (C139_create, C139_create_hangs); a draft whose saving is refused at the write is empty afterwards (C139_save_refuted). Proved: reading an article or a treasure, adding to an article and deleting a draft tell the refusal and change nothing (C139_partial); calls that make their file tell it too, and leave at most the file made or the draft emptied (C139_makers); C139_users, C139_boards, C139_treasures, C139_articles, C139_draft and C139_favourites say what the other calls can answer. |
| C140 | A process with a limit on open files can make any number of calls | Violated: six list readers never close their file, so no number suffices (C140_refuted); once the limit is reached every call is in vain, and the two that look for a free name do not return (C140_exhausted). Proved: one call needs one descriptor more, removing a board two (C140_one_call); if at most k of the six are made between two runs of the collector, k + 2 suffice for any number of calls, whatever fails (C140_partial), and two if none of the six is made (C140_closed); after the collector has run only the files of the program are open (C140_collected). |
| C141 | A decoded record belongs to its caller | Violated: the messages of a decoded record are slices of the buffer, so they change with it (C141_refuted), and since their capacity reaches to the end of the buffer, appending to one overwrites the next (C141_fields_refuted, C141_append), unless there is not enough room behind it, when a new block is made and nothing else changes (C141_append_new). Proved: exactly the messages change, to what is in the buffer then (C141_exact); nothing changes while those 1000 bytes stay as they are (C141_partial); a byte stored through a message is stored in the buffer and changes nothing else of the record (C141_store, C141_store_outside), and nothing of a record elsewhere (C141_others); the records of a file have a block of their own each and do not disturb one another (C141_file, C141_file_all). |
| C142 | The methods of a record tell what was set and what was stored | Violated for the money of an article, which is lost when the record is saved (C142_refuted). Proved: everything else (C142_partial); for every content and every value, cut or wrapped as it may be, what is told after saving (C142_exact) and what each field holds after any edits (C142_edits); boards and users in full (C142_boards, C142_users; the moderators of a board must have nothing behind their terminator, else C86); the four methods of an article that was found and the seven of a comment, whose address is always empty (C142_found, C142_found_list, C142_comment). |
| C143 | A name that is too long for the system is refused and nothing changes | Violated: the reader of drafts and that of favourites take a name that is too long for one that is free and answer with nothing (C143_draft, C143_favourites, C143_draft_refuted), and a new article on a board whose name is too long is looked a name for without end (C143_create, C143_create_refuted). Proved: all other calls say so and change nothing (C143_partial); names of at most 255 bytes below a home directory of at most 2048 fit, and then the limits do not show, alone or with any number of clients (C143_short, C143_fits, C143_clients); every run within the limits is a run under refusals, of which C139 speaks (C143_refusals); no name on the disk gets too long, whatever is asked (C143_names), and on such a disk a component that is too long would have been a missing file without the limits too (C143_free). Simplification: the system looks a path up from the left and stops at what is missing before it sees a long component. |
| C144 | No cache is returned with an error | Violated: the pointer that OpenMmap or OpenKey returns is converted to the interface even if it is nil, so a file or key that cannot be opened gives a value that is not nil and crashes when used or closed (C144_refuted, C144_key_refuted). Proved: a connection string that is refused gives nil (C144_partial); when exactly the value is nil, useless or readable, with nothing changed by a failure (C144_exact, C144_same); on Windows nothing can ever be opened (C144_windows); the cache of package pttbbs, which tests the error first, is nil exactly after an error (C144_pttbbs). |
| C146 | The disk gets full while several clients add: what was answered with success is listed | Violated: after a part of one client's record was stored, the record of another client, who is told of success, is not in the list (C146_refuted). Proved: what is answered with success is in the file in one piece, and every other piece is a beginning as long as the room there was (C146_pieces, C146_text); what was in the list before is read as before (C146_old); the full claim if a write finds room for a whole record or for nothing, for lists of articles and for the list of boards (C146_partial, C146_boards_partial). C146_exact and C146_boards_exact say where each stored record is read: in its place exactly if the parts before it make up whole records, otherwise in two records, and which. One client alone is C127, a refused write that stores nothing is C145. |
| C147 | What one account has made, other accounts of the machine do not change | Violated: CreateMmap makes its file with mode 0666, so without a mask everybody may write to it (C147_refuted; C147_cache and C147_file say exactly when and for whom; a shared segment only by its owner, C147_segment). Proved: everything that calls of the database make has mode 0644 less the mask (C147_made, and with its owner, its group and its directory C147_made_exact) and is neither changed nor removed by accounts that may not write (C147_kept, C147_partial), nor by accounts that may not search its directory, whatever the mode of the file (C147_away); nothing is made where one may not (C147_none_made); lists hold what was answered with success (C147_under, C147_added); with one account for all, the models without accounts are right (C147_one_account). Owners, groups, the three sets of permission bits, and directories that may not be searched are modelled. Assumed: nobody changes modes, no access control lists. |
| C148 | A draft is read by its owner only | Violated: drafts are made with mode 0644, so with the usual mask 022 every account reads them (C148_refuted). C148_readers says exactly which mask hides a new draft from others, C148_owner which hides it from the one who saved it; C148_existing: saving again changes neither owner nor mode, whatever the mask. C148_barred, C148_home: an account that may not search the directory of a draft is told that the draft is empty, not that it may not read it. |
| C149 | Databases opened and used by several goroutines keep whole homes | Violated: the connector's only field is a string, stored and loaded as two words without a lock (the map carries the remark TODO: Mutex). A path asked for beside an Open may be built from the address of one home and the length of another (C149_refuted), even with bytes of unrelated memory (C149_beyond); two Opens that overlap may leave such a home for good (C149_left_refuted); one call may use two homes (C149_one_home_refuted); a driver registered beside an Open may end the program (C149_map_refuted). Proved for all schedules: what is loaded is always the address of one and the length of one home named so far (C149_words), so homes of one length are never torn (C149_partial), and each of the four mixtures of two homes is read, and left, under some schedule (C149_exact, C149_left_exact); an Open that overlaps no other leaves its home (C149_sole), and while nobody opens every load gives it (C149_settled); once drivers are registered the map is never fatal (C149_registered); alone, a goroutine does what the registry of C30 says (C149_home, C149_undisturbed, C149_register). On a machine where a load may see an older store: words still come from homes named so far (C149_weak, C149_weak_partial), and with fresh loads nothing differs (C149_weak_fresh), but after an Open has returned another goroutine may still use a torn home (C149_stale, C149_stale_refuted). On a machine that shows stores late every home that a connector ever had may be loaded ever after (C149_never_forgotten). |
| C150 | Lines of the log are the program's | Violated for calls: the paths are logged as they are, so a user, board or draft name with a newline and a time stamp in it writes a line that cannot be told from an entry (C150_refuted). Exact: stamped lines are genuine if and only if no later line of a message begins with a stamp (C150_exact), a call writes one line if and only if its names and the home have no newline (C150_call, C150_partial). For requests the stamped lines are always genuine, because what is logged are pieces between slashes and a stamp has slashes (C150_requests); but a newline in a path breaks the line (C150_lines_refuted, C150_one_line, C150_lines). The record printed by POST /v1/token is opaque here and assumed to have no newline. A redirected or refused request writes nothing (C150_silent). Message by message: C150_token, C150_users and C150_quiet say exactly what each request writes. C150_named: the path that a call writes is the one it names to the system first. |
| C151 | Searching comments tells nobody the articles | Violated: when more than one comment was found, the whole article is printed (bbs.go:693-695), and a search for anyone goes through the articles of all boards but ALLPOST. C151_exact says which texts are in the log after a whole search, C151_board up to where it fails; they do not depend on who is asked about (C151_anyone), can be read back in full (C151_readable), and answers are those of C33 (C151_same). C151_partial: nothing is written if no article has more than one comment. |
| C152 | The length of a segment is read right on every system | Refuted for 32-bit x86 Linux: the length taken is the upper half of the time of the last attachment (C152_exact), so until 2106 the buffer is empty and the first question to the cache panics (C152_empty). Proved for 64-bit Linux and Darwin (C152_partial). Memory beyond the buffer is written on 64-bit Linux only (C152_inside, see C90). Trusted: the kernels' structures; not covered: 32-bit ARM. |
| C153 | Nobody can foretell the file name of a new article | Refuted for NewArticleRecordWithMap: it seeds the generator with the clock, so the name depends on the clock and the taken names only (C153_foretold; C153_exact says which name). In one second the first name is the same on all boards and machines (C153_same), the second article on a board draws all numbers of the first again (C153_later), and names made afterwards without a map can be foretold too (C153_after). Without a map the name is that of the first free round (C153_without_map), and processes whose generators start alike, as before Go 1.20, try the same names (C153_alike). Proved for CreateBoardArticleFilename with a generator in an unknown state (C153_partial). The numbers of math/rand are any fixed function of seed and position. |
| C154 | However processes name one home directory, they share one database and stay inside it | Refuted with a link inside the home directory: an article that is a link to a file elsewhere is written through (C154_one_database_refuted). Proved when no link lies in the home directory (C154_one_database_partial); then the run is that of a plain absolute name on a disk without links (C154_plain), so the theorems about disks without links carry over. Arguments do not go up, a removed draft has a plain name, and no directory has a draft's name. With links anywhere, names that lead to one place by equally many links share one database while they do (C154_shared), in particular if no draft is deleted (C154_links_anywhere); with different numbers an article behind 40 links shows the difference (C154_limit_refuted). Nothing is made through a link (C154_create), and removing a link leaves what it names (C154_remove); a link to itself leads nowhere (C154_loop). Without any link the model is the one used everywhere else (C154_none). No call makes a link (C154_none_made). Links elsewhere, e.g. on the way to the home directory, are free; 40 may be followed. |
| C155 | After the power has failed, a list of articles shows only records that somebody added | Refuted for files that are stored in parts: the length of a list can be stored without the bytes of a record, and the list then shows a record without a file name that nobody added (C155_records_refuted). Proved if every file is stored as a whole (C155_records). In parts: the old records are listed as they were, with at most as many further ones as were added (C155_partial); every further byte is the one that was added or NUL (C155_added), and for one call this is exactly what can be left (C155_exact). Several clients at once, whatever else they do: what was stored is there, and the old records are listed as they were (C155_clients, C155_lists). The calls change the list only by adding to it, and rewrite no directory. Clients' additions too may be found as NUL bytes (C155_clients_nul). |
| C156 | A board added with the tool is listed by the service from its next start | Violated for a list that ends within a record: the tool adds without complaint, and the service lists a board without a name (C156_refuted). If the list holds whole records it is true for any number of runs (C156_partial, from C156_step); the service that runs keeps its list (C156_running). Tool and service may name the list differently, as long as both names lead to the same place; without symbolic links (for these see C154). |
| C157 | An article that was just added is found under its author, once | Violated: a board can be in the list of boards twice (C69), and then the article is found twice (C157_refuted). Exact: it is found once for every time its board is in the list, except as ALLPOST, behind the other articles of the board, and only for its author (C157_exact, C157_count); in a board that is listed once, once (C157_partial). After any history of calls a search finds exactly what the lists hold (C157_history). The boards that are searched are assumed to have a proper name and a directory. |
| C158 | A comment that was just added is the last comment of its article | Violated if the last line of the article is not finished: the comment becomes part of that line (C158_refuted). With a finished line and no line of 64 KiB it is true (C158_partial), for any number of comments (C158_many); C158_line says what any line does: it adds one comment, none, or makes the list unreadable if it has an impossible time. Comments with a colon in the text are stored changed (C39). C158_exact says for every article when it holds: no line is too long, what is unfinished is no comment itself, and the joined line is read as the comment. C158_history and C158_search say the same of the search for a user's comments, after any history of calls. |
| C159 | A board that was removed is gone, and its name can be used anew | Violated: removal touches only the list of boards, so the articles stay where they are and a board added later under the same name has them (C159_refuted, C159_again). The boards that remain are listed and searched as before (C159_gone). |
| C162 | Whether a call failed can be read in the log | False both ways (C162_refuted). Posting a record, creating and appending an article and the three draft calls write nothing when they fail, and the list of a board without articles is written as an error though the call succeeds with no articles. C162_exact says exactly which reasons are in the log; C162_partial is the claim for the calls that report; C162_silent the lines of those that do not; C162_path, C162_one and C162_crash what else may be there. |
| C164 | The log of a search tells why it failed and what it found | Every failure of a search is written, but the converse fails: the driver writes that there is no file when a board has no list of articles, and the search goes on. C164_exact says exactly which reasons are written: that of the failure, and that there is no file when a board without a list was met. The lines about what was found, the texts and the paths are proved as stated. |
| C166 | A call made again because its answer was lost does nothing more | False of the code: adding a board, a record or an article, and appending a text, do it twice (C166_safe_to_repeat_refuted). Exactly those calls are unsafe, when both runs succeed (C166_exact); what the second run does is given for every call (C166_repeated); a failed call fails again alike (C166_failed). The other calls may be made any number of times (C166_any_number_partial). Missing: nothing but the refuted cases. |
| C167 | An article sent again keeps what was added to it | False of the code when another writes over the article in between (C167_safe_to_resend_refuted). It holds for all calls in between that neither write over a text nor delete, by any names (C167_safe_to_resend_partial); writing changes nothing exactly when the article begins with the text (C167_exact). |
| C168 | What was read is found again after others have added | False of the code for a list that ends within a record: its last record changes when the next is added (C168_stays_read_refuted). Texts and drafts stay on every disk (C168_texts); of a list all records but the last stay on every disk that has it (C168_lists); all of them when its records are whole (C168_stays_read_partial). A list of articles that is not there reads as empty and can be read later, unless a file has come to be where its directory would be (C168_later), which happens (C168_missing_refuted). So of two listings of a board's articles in one history the later begins with the earlier, but perhaps for its last record (C168_moments, C168_readers_agree); the list of boards can be read at every later moment as well (C168_board_moments). |
| C169 | Favourites that were read are read again the same | False of the code when the list of boards ends within a record: a favourite that points at that record shows another name once a board is added (C169_favourites_stay_refuted). It holds on every disk whose list of boards has whole records (C169_favourites_stay_partial); a file of favourites that was not there is not made (C169_none_made), and bytes behind the file change nothing (C169_trailing). |
| C170 | What a search found it finds again after others have added | False of the code: a board without a name, once added, makes every search panic (C170_found_again_refuted), a comment without a newline is changed by the next one (C170_comments_refuted), and a record of an article that has no text makes the search for comments fail (C170_comments_go_on_refuted). With lists of whole records, and for comments texts that end with a newline, a later search that succeeds finds everything found before in the same order (C170_found_again_partial, C170_comments_partial, C170_board_comments_partial); it succeeds exactly when the lists of all boards can be read (C170_succeeds), and so whenever every board on the list had its directory (C170_furnished_partial). |

## 7. Axioms

`#print axioms` of the 928 manifest theorems: 801 use `propext`, `Classical.choice` and `Quot.sound`; 94 use `propext` and `Quot.sound`;
21 use `propext` only; 12 use none. No other axiom occurs.
