{
"C01": {"note": "Prefix up to the first NUL, plus uniqueness of that characterisation."},
"C02": {"note": "Every persisted field of the 128-byte record."},
"C03": {"note": "The code violates the property: MarshalToByte never writes money/uid/vote limits/mode. Refuted; exact effect and the zero case proved."},
"C04": {"note": "All 28 fields."},
"C05": {"note": "Role is not written by MarshalBinary: full claim refuted, exact effect proved (all fields but role)."},
"C06": {"note": "Overlapping offsets: full claim refuted, exact effect proved."},
"C07": {"note": "Round trip proved for all trees that fit, and the exact law for all trees and titles."},
"C08": {"note": "OpenFavFile returns a tree or an error for every file (C08_open_returns), whatever memory lies behind its content (C08_memory). UnmarshalFavFile itself panics on a slice with capacity under two (C08_fav_load_returns_refuted), exactly then (C08_slice_panics_iff); the recursion budget is irrelevant (C08_fav_load_returns_partial)."},
"C09": {"note": "Refuted for the codec the code uses: a title that ends in half a character changes on saving; it settles after two rounds. Exact law for all codecs, unchanged iff each title survives; partial for Big5 titles. Total counters proved for all codecs; per-kind counters refuted."},
"C10": {"note": "Any number of appends to a missing, empty or aligned file, then read back, for article and board lists (quotients by what the record stores)."},
"C100": {"note": "The code violates the property: the list is read record by record without a lock. Refuted for updates (a list that never existed) and for a board removal (a board that stays is missing). Exact: entry i is what slot i held at read number i; with appends only, the result is the list at the last read; during a removal each entry is the first bytes of the next board and the rest of its own; a half-written record is taken for a whole one. A reader that appenders stay ahead of does not return."},
"C101": {"note": "The code violates the property: the file is truncated before it is written. Refuted for one and for two writers. Exact for one writer: the old text, or the first bytes of the new one, and every such beginning is a crash point (C101_draft_partial, C101_every_prefix). Exact for several that have all finished (C101_mix_exact): one of them was the last to open the draft, the others had written some bytes by then, and at every place stands what any of those who still had that byte to write wrote, or NUL; every such mixture is left by some interleaving. At any moment every byte is one that some process writes there, or NUL (C101_mix_bytes, C101_hole); a save that nobody disturbs after it opened the file leaves its text (C101_mix_partial)."},
"C102": {"note": "The code violates the property: the record is put in the list before the text is written. Refuted (C102_listed_refuted). Exact for every crash point: what the file and the list hold, and that nothing else has changed (C102_crash_exact, C102_points); a whole record has a file with a beginning of the text; a torn record lists a cut name (C102_torn)."},
"C103": {"note": "Refuted for reserved names: writing the article .DIR replaces the list of the board (C103_forged says with what). C103_exact has the law for all histories whose names are single path components, reserved or not, in directories that exist: the calls answer as the map from the objects that are meant does."},
"C104": {"note": "Every body is valid UTF-8 and JSON and reads back as the value (C104_read_back, C104_boards, C104_user, C104_loaded_boards, C104_errors). Exactness for a user record refuted: name and address are not decoded, so bytes that are no UTF-8 are written as U+FFFD; partial for names and addresses that are text. Exactly when the record is told faithfully: C104_record_exact."},
"C105": {"note": "Refuted: the two fields are not exported, so the list does not depend on them (C105_hidden). Everything else can be told from the list."},
"C106": {"note": "Refuted for zones with odd seconds, which RFC 3339 cannot express; exact law for all zones, partial for zones of whole minutes. A time can be written iff its year has four digits."},
"C107": {"note": "Refuted twice: a refused login and a wrong method are answered with status 200. Exact characterisation; nobody is ever answered 401; an unknown user is answered 500."},
"C108": {"note": "Refuted: six list readers never close their file, and a mapped file stays open when it cannot be sized or mapped. Exact law for these (the file is open afterwards iff it could be opened; n calls leave n files); all other calls close what they open whatever fails, and closing a mapped file gives it back. The finaliser that the Go runtime may run later is not part of the model."},
"C109": {"note": "Refuted: a failed write while a board is added, or a failed step while one is removed, returns without the unlock. C109_add_exact and C109_remove_exact: the lock stays iff the file was opened and locked and the call failed. All other calls give it back in every case."},
"C11": {"note": "In-range updates change exactly one slot; the full claim is refuted (a distant index overwrites through wrap-around, and an index past the end extends the file); exact effect for an index past the end proved."},
"C110": {"note": "Refuted: saving a draft and appending to an article write without a lock (exact: one such write iff the file opens). Proved for all others; proved for all calls: no operation on a file that is not open, no unlock without a lock."},
"C111": {"note": "Refuted for six calls: five list readers ignore read errors and the removal of a board ignores a failed truncation. Proved for all others; for all calls, success means that no lock, seek, conversion or write failed. C111_exact: what may have failed is a read of the five readers or the cut of a removal, and nothing else."},
"C112": {"note": "Refuted: the listings of boards, users and articles (both formats) never return on a path that opens but does not read, such as a directory. Exact; the online list and the article reader return an error."},
"C113": {"note": "Proved for every byte string, also for broken ones. The bytes at which one may cut are exactly those below 0x40: letters, backslash and bar can be the second half of a character."},
"C114": {"note": "False of the code: an empty user or board name indexes an empty string and panics; favourites naming a missing board panic; a directory in the place of a list is read forever. Proved exactly: those are the only crashes and the only calls that do not return (creating an article may also fail to find a name, see C25)."},
"C115": {"note": "False of the code because C06 is: three game scores come back as those of other games. Everything else is proved: number and order of records, the zero-filled tail, and that a failing read gives an error and no records (unlike the other readers, see C17). C115_exact: the records come back exactly if those scores agree."},
"C116": {"note": "Proved for all clients, calls and interleavings of system calls when whatever one client changes and another touches is only added to (articles by appending, lists of whole records, a board list that exists): each call takes effect at one moment, a sequential order with the same answers and contents exists, and a client left alone gets its answer. Refuted, one witness each, for drafts that are written, drafts that are deleted, articles that are overwritten, the first board, and lists with an incomplete record: the locks do nothing and files are opened, truncated and written in separate steps."},
"C117": {"note": "Proved for all scripts and interleavings. A race is judged on the ideal database only (one call at a time); drafts, board lists that do not exist yet and overwritten articles make races, adding to articles and to lists of whole records does not. Without the condition the claim is refuted.", "status": "proved"},
"C118": {"note": "Proved when a post creates the file, writes the text and then adds the record, and for all clients that keep to rules stated in Spec/Decent (read and add to articles found in a list, write to articles of one's own that are in no list, keep to one's own drafts). Refuted for the order used by the command-line tool (file, record, text): a reader gets an empty article, and an accepted comment is overwritten by the text. A listed article without its text is also seen between two calls of the tool (C118_tool_posts_arrive_refuted); C133 says what holds of its order."},
"C119": {"note": "Proved for articles in full. Proved for comments when articles, texts and comments end with a newline (C119_comments_partial); refuted without that condition: a comment added to an unfinished line merges with the comment in that line. Clients keep to the rules of Spec/Decent, or are posters (file, text, record) and guests."},
"C12": {"note": "Any chunking, completion always possible, bounded number of calls; with an index at or beyond the end the file is zero-extended (refuted, exact effect proved)."},
"C120": {"note": "Proved in full, on every disk. The reads of a list may be divided in any way."},
"C121": {"note": "Proved in full and exactly: a disk can be left if and only if it is one of those described (C121_left, C121_exact). That every call has happened or not is refuted (C121_atomic_refuted): a draft saved again is emptied first, so both texts can be lost (C121_draft_lost). Simplification: what earlier system calls wrote is on the disk.", "status": "proved"},
"C122": {"note": "Proved when a post creates the file, writes the text and then adds the record (C122_posts_survive, C122_comments_survive), and that clients can go on after a stop between system calls (C122_starts_again, C122_lives). Refuted for the order in which the tool posts (C122_tool_refuted): a listed article without its text. Going on is refuted when a record is torn (C122_torn_refuted); C16 says what happens then. Simplification: what earlier system calls wrote is on the disk. C134 says what holds of the tool's order."},
"C123": {"note": "Exact output of every subcommand that shows something (the article list and the comments are C78 and C81), of every missing argument, of a directory that cannot be opened, of an unknown subcommand, and of the three lines printed first. Error texts of the operating system are strings of the model."},
"C124": {"note": "Proved as stated, for every schedule of any number of clients. C124_condition_needed: without the condition (a draft removed while another client has it open for writing) the two ways of knowing open files give different answers. Trusted: Disk.step as a model of POSIX files without links and renames."},
"C125": {"note": "Refuted (C125_refuted, C125_chased: for every existing list): readers read to an end that moves. C125_bounded_partial gives the number of steps for every call, C125_writers and C125_create what does not depend on sizes, C125_all_end the end of all scripts under every fair schedule without end. Assumed for lists: no directory has the name of a list (C114: such a list is read for ever)."},
"C126": {"note": "The code searches the whole text of the error, which contains the path. A store directory or a board name with the phrase 'no such file or directory' makes every failure to open a list look like a missing list (C126_refuted; the example has such a board name). C126_exact says exactly when the answer is an empty list. C126_partial: without the phrase in the two names an empty answer is true and every other error is told. C126_agrees_partial: there the reader is the one the other theorems are about."},
"C127": {"note": "Refuted twice: a draft that is saved again is gone (C127_refuted, C127_draft_lost: for every existing draft), and after a record of which some bytes were stored every later record is read shifted (C127_again_refuted, C127_again_exact). C127_exact gives exactly the disks on which a call can fail; C127_success: success means that everything was done; C127_own_file_partial: only the call's own file can differ. Claiming a name on a full disk does not return (C127_create, C127_create_hangs)."},
"C128": {"note": "Refuted for names that are no UTF-8: the JSON encoder writes U+FFFD for every such byte, so the users A4 and A5 get tokens with the same claims (C128_names_refuted). Exact law for all names; partial for valid UTF-8. What a token says, that it has one meaning and one spelling, and that it survives the body and the header are proved in full. If signing fails the answer is status 200 with an empty token (C128_unsigned)."},
"C129": {"note": "Refuted: no file is ever synced, so an answered post may be gone (C129_refuted), and even if its record is stored its text may not be (C129_texts_refuted), although C122 holds when only the program stops. Partial: every list has its old records and then whole records of some posts, and stored articles keep their texts (C129_partial); whatever is only added to is between what was stored and what was answered (C129_added). If the disk is stored before each call, the power leaves exactly what a stop of the machine leaves, C121 (C129_one_call). Simplification: one file is not a mixture of several moments."},
"C13": {"note": "Byte-granular crash points."},
"C130": {"note": "Refuted: the four bytes of a number may be loaded one by one, so 255 becoming 256 may be read as 511 or as 0 (C130_torn_refuted). Proved: byte k of the number read is byte k of the number that stood there when it was loaded; changes of a single byte, in particular numbers that stay below 256, and a single load of all bytes give a number that stood there; the sign is right; without a writer it is the number of the cache."},
"C131": {"note": "Proved for all clients that keep to the rules of C118, and for every place at which the history is cut, without waiting for a moment at which no call is under way: C131_boards, C131_articles, C131_order, C131_comments, C131_texts, C131_drafts, C131_searches, and C131_pushes for the search for comments (when articles end with whole lines, as in C119_comments). The rules are those of C118: who posts with the tool's order of calls does not keep to them, and C118_tool_comments_refuted shows a comment that is lost."},
"C132": {"note": "False of the code: the lock is empty. With two removals at once a board that nobody named is lost and a removed one is back (C132_exact_refuted, C132_others_refuted, C132_named_refuted); with three a blank board appears (C132_blank_refuted). What every interleaving of any number of removals and additions keeps is proved: whole entries only, each blank, added, or from the list and at most one place lower for each removal begun (C132_near_partial); the list is shorter by at most one entry for each removal begun and, with valid indices and no additions, by at least one once any has returned (C132_count_partial, C132_shorter_partial); boards before all the removed ones stay (C132_below_partial); removals in turn are exact (C132_in_turn_partial). What somebody reading at the same time can get: C132_readers_partial."},
"C133": {"note": "Proved (C133_readers_leave_no_trace, C133_tool_posts_arrive, C133_all_through, C133_comments_stay). The readers are left out first; the other clients never race although the tool writes the text into an article that is listed already. The stronger claims of C118 (a listed article has its text, every accepted comment stays) are false of the tool's order: C118_tool_posts_arrive_refuted, C118_tool_whole_articles_refuted, C118_tool_comments_refuted."},
"C134": {"note": "Proved (C134_tool_posts_survive, C134_comments_survive, C134_starts_again, C134_lives). That a listed article has its whole text after a stop is false of the tool's order (C122_tool_refuted); going on after a torn record is refuted by C122_torn_refuted. Simplification: what earlier system calls wrote is on the disk."},
"C135": {"note": "Own paths, stopping and reading are proved for every driver (C135_own_paths, C135_stops_partial, C135_readers); writing down what is asked changes nothing (C135_tape_changes_nothing). That a success has had no failing method is false (C135_refuted): reading the list of a board with an error that contains \"no such file or directory\" counts as an empty list; this is the only exception (C135_success_partial). In front of pttbbs the calls are those of the other files of the model (C135_pttbbs, C135_pttbbs_searches); a foreign record is refused (C135_foreign), a nil record panics after the file is made (C135_null)."},
"C136": {"note": "False of the code (C136_refuted): most methods assert the interface without looking. Exactly when a call crashes is C136_crash_exact; it has changed nothing by then (C136_nothing_done); with all interfaces and a draft that is not nil nothing crashes (C136_partial); the two methods that look return an error (C136_checked)."},
"C137": {"note": "Without a kept list proved (C137_articles_exact, C137_comments_exact). A kept list that is not empty is given out as it is, nothing else is asked (C137_kept_articles, C137_kept_comments), so one that is out of date is a wrong answer (C137_refuted); an empty one, or one that is what the search finds, makes no difference (C137_faithful_articles, C137_faithful_comments)."},
"C138": {"note": "Violated: the slice from Bytes points outside the Go heap and does not keep the cache reachable, so after the last use of the cache the finalizer may unmap memory that is still read (C138_stays_refuted); Money makes its last use of the cache before it reads the bytes and may fault (C138_money_refuted) or read another cache's bytes (C138_money_other); closing one cache twice can unmap another (C138_twice_refuted). Proved: while the program still refers to a cache and closes nothing twice the memory stays the same (C138_stays_partial, C138_money_partial); the runtime releases a dropped cache exactly once and touches no other (C138_collected) and never one the program has closed (C138_closed_left)."},
"C139": {"note": "Violated: ReadUserDraft and ReadUserFavoriteRecordsFile take every error of Stat for a missing file, so a draft that cannot be looked at is answered as an empty one (C139_draft_refuted, C139_draft_empty); the readers of lists look for the end of the file only and take the buffer for a record after any other error, so a read that is refused once becomes a blank user, board or article (C139_list_refuted; C139_lists_exact: the possible answers are exactly the right list with blank records put in anywhere), favourites then get the names of other boards (C139_favourites), and a list that stays unreadable is never answered (C139_endless); claiming a name never answers with a refusal and goes on for ever (C139_create, C139_create_hangs); a draft whose saving is refused at the write is empty afterwards (C139_save_refuted). Proved: reading an article or a treasure, adding to an article and deleting a draft tell the refusal and change nothing (C139_partial); calls that make their file tell it too, and leave at most the file made or the draft emptied (C139_makers); C139_users, C139_boards, C139_treasures, C139_articles, C139_draft and C139_favourites say what the other calls can answer."},
"C14": {"note": "A no-op lock: an append between end-of-file and truncation is lost (refuted); exact set of surviving records for every interleaving, and the serial result when the window is empty. C14_exact: the result is serial exactly if nothing was appended in that window."},
"C140": {"note": "Violated: six list readers never close their file, so no number suffices (C140_refuted); once the limit is reached every call is in vain, and the two that look for a free name do not return (C140_exhausted). Proved: one call needs one descriptor more, removing a board two (C140_one_call); if at most k of the six are made between two runs of the collector, k + 2 suffice for any number of calls, whatever fails (C140_partial), and two if none of the six is made (C140_closed); after the collector has run only the files of the program are open (C140_collected)."},
"C141": {"note": "Violated: the messages of a decoded record are slices of the buffer, so they change with it (C141_refuted), and since their capacity reaches to the end of the buffer, appending to one overwrites the next (C141_fields_refuted, C141_append), unless there is not enough room behind it, when a new block is made and nothing else changes (C141_append_new). Proved: exactly the messages change, to what is in the buffer then (C141_exact); nothing changes while those 1000 bytes stay as they are (C141_partial); a byte stored through a message is stored in the buffer and changes nothing else of the record (C141_store, C141_store_outside), and nothing of a record elsewhere (C141_others); the records of a file have a block of their own each and do not disturb one another (C141_file, C141_file_all)."},
"C142": {"note": "Violated for the money of an article, which is lost when the record is saved (C142_refuted). Proved: everything else (C142_partial); for every content and every value, cut or wrapped as it may be, what is told after saving (C142_exact) and what each field holds after any edits (C142_edits); boards and users in full (C142_boards, C142_users; the moderators of a board must have nothing behind their terminator, else C86); the four methods of an article that was found and the seven of a comment, whose address is always empty (C142_found, C142_found_list, C142_comment)."},
"C143": {"note": "Violated: the reader of drafts and that of favourites take a name that is too long for one that is free and answer with nothing (C143_draft, C143_favourites, C143_draft_refuted), and a new article on a board whose name is too long is looked a name for without end (C143_create, C143_create_refuted). Proved: all other calls say so and change nothing (C143_partial); names of at most 255 bytes below a home directory of at most 2048 fit, and then the limits do not show, alone or with any number of clients (C143_short, C143_fits, C143_clients); every run within the limits is a run under refusals, of which C139 speaks (C143_refusals); no name on the disk gets too long, whatever is asked (C143_names), and on such a disk a component that is too long would have been a missing file without the limits too (C143_free). Simplification: the system looks a path up from the left and stops at what is missing before it sees a long component."},
"C144": {"note": "Violated: the pointer that OpenMmap or OpenKey returns is converted to the interface even if it is nil, so a file or key that cannot be opened gives a value that is not nil and crashes when used or closed (C144_refuted, C144_key_refuted). Proved: a connection string that is refused gives nil (C144_partial); when exactly the value is nil, useless or readable, with nothing changed by a failure (C144_exact, C144_same); on Windows nothing can ever be opened (C144_windows); the cache of package pttbbs, which tests the error first, is nil exactly after an error (C144_pttbbs)."},
"C145": {"note": "Proved for every file that only adding calls write to (C145_added), at every moment and not only at rest; for lists of articles and of boards made of whole records, record by record (C145_articles, C145_boards). The condition on the other calls is needed: writing an article goes over what is there (C145_condition_needed). Simplification: a write that is refused stores nothing; on a full disk a part of it may be stored, which is C127."},
"C146": {"note": "Violated: after a part of one client's record was stored, the record of another client, who is told of success, is not in the list (C146_refuted). Proved: what is answered with success is in the file in one piece, and every other piece is a beginning as long as the room there was (C146_pieces, C146_text); what was in the list before is read as before (C146_old); the full claim if a write finds room for a whole record or for nothing, for lists of articles and for the list of boards (C146_partial, C146_boards_partial). C146_exact and C146_boards_exact say where each stored record is read: in its place exactly if the parts before it make up whole records, otherwise in two records, and which. One client alone is C127, a refused write that stores nothing is C145."},
"C147": {"note": "Violated: CreateMmap makes its file with mode 0666, so without a mask everybody may write to it (C147_refuted; C147_cache and C147_file say exactly when and for whom; a shared segment only by its owner, C147_segment). Proved: everything that calls of the database make has mode 0644 less the mask (C147_made, and with its owner, its group and its directory C147_made_exact) and is neither changed nor removed by accounts that may not write (C147_kept, C147_partial), nor by accounts that may not search its directory, whatever the mode of the file (C147_away); nothing is made where one may not (C147_none_made); lists hold what was answered with success (C147_under, C147_added); with one account for all, the models without accounts are right (C147_one_account). Owners, groups, the three sets of permission bits, and directories that may not be searched are modelled. Assumed: nobody changes modes, no access control lists."},
"C148": {"note": "Violated: drafts are made with mode 0644, so with the usual mask 022 every account reads them (C148_refuted). C148_readers says exactly which mask hides a new draft from others, C148_owner which hides it from the one who saved it; C148_existing: saving again changes neither owner nor mode, whatever the mask. C148_barred, C148_home: an account that may not search the directory of a draft is told that the draft is empty, not that it may not read it."},
"C149": {"note": "Violated: the connector's only field is a string, stored and loaded as two words without a lock (the map carries the remark TODO: Mutex). A path asked for beside an Open may be built from the address of one home and the length of another (C149_refuted), even with bytes of unrelated memory (C149_beyond); two Opens that overlap may leave such a home for good (C149_left_refuted); one call may use two homes (C149_one_home_refuted); a driver registered beside an Open may end the program (C149_map_refuted). Proved for all schedules: what is loaded is always the address of one and the length of one home named so far (C149_words), so homes of one length are never torn (C149_partial), and each of the four mixtures of two homes is read, and left, under some schedule (C149_exact, C149_left_exact); an Open that overlaps no other leaves its home (C149_sole), and while nobody opens every load gives it (C149_settled); once drivers are registered the map is never fatal (C149_registered); alone, a goroutine does what the registry of C30 says (C149_home, C149_undisturbed, C149_register). On a machine where a load may see an older store: words still come from homes named so far (C149_weak, C149_weak_partial), and with fresh loads nothing differs (C149_weak_fresh), but after an Open has returned another goroutine may still use a torn home (C149_stale, C149_stale_refuted). On a machine that shows stores late every home that a connector ever had may be loaded ever after (C149_never_forgotten)."},
"C15": {"note": "Any number of appenders, any schedule of their system calls."},
"C150": {"note": "Violated for calls: the paths are logged as they are, so a user, board or draft name with a newline and a time stamp in it writes a line that cannot be told from an entry (C150_refuted). Exact: stamped lines are genuine if and only if no later line of a message begins with a stamp (C150_exact), a call writes one line if and only if its names and the home have no newline (C150_call, C150_partial). For requests the stamped lines are always genuine, because what is logged are pieces between slashes and a stamp has slashes (C150_requests); but a newline in a path breaks the line (C150_lines_refuted, C150_one_line, C150_lines). The record printed by POST /v1/token is opaque here and assumed to have no newline. A redirected or refused request writes nothing (C150_silent). Message by message: C150_token, C150_users and C150_quiet say exactly what each request writes. C150_named: the path that a call writes is the one it names to the system first."},
"C151": {"note": "Violated: when more than one comment was found, the whole article is printed (bbs.go:693-695), and a search for anyone goes through the articles of all boards but ALLPOST. C151_exact says which texts are in the log after a whole search, C151_board up to where it fails; they do not depend on who is asked about (C151_anyone), can be read back in full (C151_readable), and answers are those of C33 (C151_same). C151_partial: nothing is written if no article has more than one comment."},
"C152": {"note": "Refuted for 32-bit x86 Linux: the length taken is the upper half of the time of the last attachment (C152_exact), so until 2106 the buffer is empty and the first question to the cache panics (C152_empty). Proved for 64-bit Linux and Darwin (C152_partial). Memory beyond the buffer is written on 64-bit Linux only (C152_inside, see C90). Trusted: the kernels' structures; not covered: 32-bit ARM."},
"C153": {"note": "Refuted for NewArticleRecordWithMap: it seeds the generator with the clock, so the name depends on the clock and the taken names only (C153_foretold; C153_exact says which name). In one second the first name is the same on all boards and machines (C153_same), the second article on a board draws all numbers of the first again (C153_later), and names made afterwards without a map can be foretold too (C153_after). Without a map the name is that of the first free round (C153_without_map), and processes whose generators start alike, as before Go 1.20, try the same names (C153_alike). Proved for CreateBoardArticleFilename with a generator in an unknown state (C153_partial). The numbers of math/rand are any fixed function of seed and position."},
"C154": {"note": "Refuted with a link inside the home directory: an article that is a link to a file elsewhere is written through (C154_one_database_refuted). Proved when no link lies in the home directory (C154_one_database_partial); then the run is that of a plain absolute name on a disk without links (C154_plain), so the theorems about disks without links carry over. Arguments do not go up, a removed draft has a plain name, and no directory has a draft's name. With links anywhere, names that lead to one place by equally many links share one database while they do (C154_shared), in particular if no draft is deleted (C154_links_anywhere); with different numbers an article behind 40 links shows the difference (C154_limit_refuted). Nothing is made through a link (C154_create), and removing a link leaves what it names (C154_remove); a link to itself leads nowhere (C154_loop). Without any link the model is the one used everywhere else (C154_none). No call makes a link (C154_none_made). Links elsewhere, e.g. on the way to the home directory, are free; 40 may be followed."},
"C155": {"note": "Refuted for files that are stored in parts: the length of a list can be stored without the bytes of a record, and the list then shows a record without a file name that nobody added (C155_records_refuted). Proved if every file is stored as a whole (C155_records). In parts: the old records are listed as they were, with at most as many further ones as were added (C155_partial); every further byte is the one that was added or NUL (C155_added), and for one call this is exactly what can be left (C155_exact). Several clients at once, whatever else they do: what was stored is there, and the old records are listed as they were (C155_clients, C155_lists). The calls change the list only by adding to it, and rewrite no directory. Clients' additions too may be found as NUL bytes (C155_clients_nul)."},
"C156": {"note": "Violated for a list that ends within a record: the tool adds without complaint, and the service lists a board without a name (C156_refuted). If the list holds whole records it is true for any number of runs (C156_partial, from C156_step); the service that runs keeps its list (C156_running). Tool and service may name the list differently, as long as both names lead to the same place; without symbolic links (for these see C154)."},
"C157": {"note": "Violated: a board can be in the list of boards twice (C69), and then the article is found twice (C157_refuted). Exact: it is found once for every time its board is in the list, except as ALLPOST, behind the other articles of the board, and only for its author (C157_exact, C157_count); in a board that is listed once, once (C157_partial). After any history of calls a search finds exactly what the lists hold (C157_history). The boards that are searched are assumed to have a proper name and a directory."},
"C158": {"note": "Violated if the last line of the article is not finished: the comment becomes part of that line (C158_refuted). With a finished line and no line of 64 KiB it is true (C158_partial), for any number of comments (C158_many); C158_line says what any line does: it adds one comment, none, or makes the list unreadable if it has an impossible time. Comments with a colon in the text are stored changed (C39). C158_exact says for every article when it holds: no line is too long, what is unfinished is no comment itself, and the joined line is read as the comment. C158_history and C158_search say the same of the search for a user's comments, after any history of calls."},
"C159": {"note": "Violated: removal touches only the list of boards, so the articles stay where they are and a board added later under the same name has them (C159_refuted, C159_again). The boards that remain are listed and searched as before (C159_gone)."},
"C16": {"note": "A torn append misaligns later records (refuted); the records before the tear stay readable. Exactly what is read after a tear within a record, whatever follows: C16_torn_exact, C16_torn_count."},
"C160": {"note": "Proved for all clients, schedules and refusals of system calls; C147_away and C148_home build on it. Directories are never removed by calls of the database while something is in them, and files are made only in directories that are there."},
"C161": {"note": "Proved for all files, contents, calls and schedules, of any number of clients that may not read the file or not search its directory. What may be told is that the file is there."},
"C162": {"note": "False both ways (C162_refuted). Posting a record, creating and appending an article and the three draft calls write nothing when they fail, and the list of a board without articles is written as an error though the call succeeds with no articles. C162_exact says exactly which reasons are in the log; C162_partial is the claim for the calls that report; C162_silent the lines of those that do not; C162_path, C162_one and C162_crash what else may be there."},
"C163": {"note": "The elements of the printed slices are pointers, so fmt prints addresses; the model keeps only how many there are. C163_lines gives the lines, C163_words says what may be in them, C163_listens when the service comes to listen."},
"C164": {"note": "Every failure of a search is written, but the converse fails: the driver writes that there is no file when a board has no list of articles, and the search goes on. C164_exact says exactly which reasons are written: that of the failure, and that there is no file when a board without a list was met. The lines about what was found, the texts and the paths are proved as stated."},
"C166": {"note": "False of the code: adding a board, a record or an article, and appending a text, do it twice (C166_safe_to_repeat_refuted). Exactly those calls are unsafe, when both runs succeed (C166_exact); what the second run does is given for every call (C166_repeated); a failed call fails again alike (C166_failed). The other calls may be made any number of times (C166_any_number_partial). Missing: nothing but the refuted cases."},
"C167": {"note": "False of the code when another writes over the article in between (C167_safe_to_resend_refuted). It holds for all calls in between that neither write over a text nor delete, by any names (C167_safe_to_resend_partial); writing changes nothing exactly when the article begins with the text (C167_exact)."},
"C168": {"note": "False of the code for a list that ends within a record: its last record changes when the next is added (C168_stays_read_refuted). Texts and drafts stay on every disk (C168_texts); of a list all records but the last stay on every disk that has it (C168_lists); all of them when its records are whole (C168_stays_read_partial). A list of articles that is not there reads as empty and can be read later, unless a file has come to be where its directory would be (C168_later), which happens (C168_missing_refuted). So of two listings of a board's articles in one history the later begins with the earlier, but perhaps for its last record (C168_moments, C168_readers_agree); the list of boards can be read at every later moment as well (C168_board_moments)."},
"C169": {"note": "False of the code when the list of boards ends within a record: a favourite that points at that record shows another name once a board is added (C169_favourites_stay_refuted). It holds on every disk whose list of boards has whole records (C169_favourites_stay_partial); a file of favourites that was not there is not made (C169_none_made), and bytes behind the file change nothing (C169_trailing)."},
"C17": {"note": "A read error is swallowed and the loop never ends (refuted for every fuel); termination and result for data/EOF sources."},
"C170": {"note": "False of the code: a board without a name, once added, makes every search panic (C170_found_again_refuted), a comment without a newline is changed by the next one (C170_comments_refuted), and a record of an article that has no text makes the search for comments fail (C170_comments_go_on_refuted). With lists of whole records, and for comments texts that end with a newline, a later search that succeeds finds everything found before in the same order (C170_found_again_partial, C170_comments_partial, C170_board_comments_partial); it succeeds exactly when the lists of all boards can be read (C170_succeeds), and so whenever every board on the list had its directory (C170_furnished_partial)."},
"C18": {"note": "Every per-board and per-user path resolves to the home directory followed by the documented components."},
"C19": {"note": "Refuted: a name with '/' and '..' reaches any path at all (C19_any_target). Partial: names without '..' stay inside. C19_exact: an object stays inside for every home directory iff no step of its path leads above its start and it does not end there."},
"C20": {"note": "Violated for the names the library uses itself: C20_reserved_names_collide shows that the reserved names (.fav, logins.recent, buf.*, .DIR, .Name) collide by construction. Without them different objects are different files, and C20_exact decides it for all names that are single components: two objects are one file exactly if they mean the same object."},
"C21": {"note": "Refuted: an empty board or user id panics; C21_panics_iff is the exact law."},
"C22": {"note": "Refuted: append into the caller's spare capacity overwrites its memory; C22_effect is the exact law, C22_exact says exactly when the caller notices nothing, partial for slices with no spare capacity."},
"C23": {"note": "Every history of write/delete/read of drafts refines a map keyed by (user, draft)."},
"C24": {"note": "One creator, and any number of concurrent creators under any schedule."},
"C25": {"note": "Refuted: a missing board directory loops for ever (all fuels), an empty board id panics; partial: terminates within k+1 rounds when round k draws a free name."},
"C26": {"note": "Refuted: the file is not truncated; C26_write_effect is the exact law; it reads back as written iff the old content is not longer (C26_exact)."},
"C27": {"note": "Exactly when the article exists; any history of appends."},
"C28": {"note": "Refuted: the zero modification time wraps to 2288912640 in the 32-bit field; C28_add_effect is the exact law; partial: every other field, and the time when it fits."},
"C29": {"note": "int8 wrap-around refutes the full claim; exact mod-256 law; the true total is shown iff it fits in a signed byte (C29_exact)."},
"C30": {"note": "Refuted: all databases of a driver share one connector; C30_second_open_takes_over is the exact effect; partial: any history in which nobody opens over the same connector. C30_exact: the first home stays exactly if the second goes over another connector or names the same home."},
"C31": {"note": "All strings."},
"C32": {"note": "Refuted: a board slot with an empty name panics the search (C32_empty_name_panics in general); partial: all other board lists and indexes, from the bytes on disk. The outcome in every case: C32_exact."},
"C33": {"note": "Refuted: a missing article file, a comment-like line with an impossible time, or a nameless board makes the whole list fail; partial: complete and sound list from the bytes on disk otherwise. When it succeeds and what it lists, exactly: C33_exact."},
"C34": {"note": "Every content, numbering and content of the comments, below 2^32 comments."},
"C35": {"note": "Refuted: a line of 64 KiB hides what follows without an error; C35_exact says which comments are reported, C35_all_exact when these are all."},
"C36": {"note": "Refuted: a stale board number panics; C36_exact is the exact law for every tree; partial: what a caller sees for every saved plain tree."},
"C37": {"note": "Subsequence and plain-text theorems for all strings; colour sequences with any groups of at most four digits, at any place after plain text, with the exact law when the text after it ends in BEL."},
"C38": {"note": "Refuted by ESC ESC[m [m; C38_idempotent_exact is the exact condition; C38_settles: as many passes as the text is long always suffice; partial also for plain results and whole coloured texts."},
"C39": {"note": "Refuted: 'a:b' becomes 'ab:'; C39_parse_exact is the law for every text of a well-formed line (C84 for every line); partial: texts without a colon."},
"C40": {"note": "Refuted: one-letter ids, hosts starting with ?/@ and ids with multi-byte characters do not survive; C40_exact is the exact law for every attempt; partial: ASCII ids of 2-12 bytes; C40_file for whole files of any length, C40_recent for recent logins."},
"C41": {"note": "Refuted: the empty line and lines cut off at the time crash the bad-login parser; C41_exact and C41_file_exact are the exact laws; recent-login lines never crash, its file reader ends the process on a 64 KiB line (exact law)."},
"C42": {"note": "Exact law proved for every key and every salt of two ASCII bytes. The claim fails only for a NUL in the salt, which the code replaces by 'A' (C42_nul_salt_refuted)."},
"C43": {"note": "Proved for every pair of keys and every salt, with NUL-terminated keys filled up by zeros."},
"C44": {"note": "Proved for every stored hash (C44_iff), for the owner with any salt (C44_own_password), against crypt(3) itself (C44_crypt3) and through the user record (C44_record)."},
"C45": {"note": "The bit-twiddling implementation is proved equal to FIPS 46 DES with salted expansion, iterated 25 times, for all keys and all salts of the crypt alphabet."},
"C46": {"note": "False of the code: a stored hash of fewer than two bytes or with a non-ASCII byte among the first two makes VerifyPassword panic. The exact condition is proved (C46_exact)."},
"C47": {"note": "Proved for every attribute word and every one of the board queries."},
"C48": {"note": "Proved for every user list; the list is a parameter because nothing in package pttbbs ever assigns its global."},
"C49": {"note": "Proved for every moderators string."},
"C50": {"note": "Proved for every layout that fits in 63 bits. Integer tables are aligned to the smaller of the setting and 4; C50_align8 shows that a setting of 8 does not make every table 8-aligned."},
"C51": {"note": "False of the code: reading an online record always ends in a panic because the record length is never set (C51_user_info_never). Ids, money and version are read exactly as laid out (C51_reads_partial)."},
"C52": {"note": "False of the code for a file name with a colon, which is cut at the colon. The exact rule is proved (C52_exact)."},
"C53": {"note": "Proved for every offset, byte string and split; also that the byte form is big-endian and different offsets never collide."},
"C54": {"note": "Issuing is proved exactly (C54_issued, C54_only_here). The refusal half is false when the stored hash is malformed, for instance an unused slot: the handler panics (C54_refusal_refuted); proved otherwise. The outcome in every case: C54_exact; when it crashes: C54_crash_exact."},
"C55": {"note": "False of the code: checkTokenPermission always succeeds, so the token is ignored (C55_token_ignored) and anyone reads anyone's data (C55_anyone). What holds is that the data are those of the user named in the path. C55_served says exactly which requests get data, C55_exact which policies are kept: those that permit everybody everything."},
"C56": {"note": "False of the code: a login for a user with a malformed hash panics (net/http then drops the connection). This is proved to be the only case (C56_exact)."},
"C57": {"note": "Proved for every argument list against an independent reading of the pairs."},
"C58": {"note": "Proved for all contents of fields and gaps, and for files of any length."},
"C59": {"note": "Proved: the answers are equal for any two password files equal on the public fields."},
"C60": {"note": "False of the code: the expiry is 1800 seconds after 1970 instead of after the moment of issue. C60_exact: accepted for half an hour exactly if issued before 1970, and accepted at all exactly if issued in its first half hour or before."},
"C61": {"note": "False of the code: the record and its hash are printed before the password is checked. The typed password is not logged. C61_exact: the log tells exactly the hash of the first user with the name given, and no other secret."},
"C62": {"note": "False of the code: no decoder checks the length. The exact length and capacity needed by each decoder are proved (C62_exact); whole records and all encoders are safe."},
"C63": {"note": "Proved for every path as a list of segments; CONNECT requests, which net/http does not canonicalise, are covered by C63_connect for every path."},
"C64": {"note": "False of the code: the whole board file is sent to everyone (C64_everyone, C64_refuted). What holds is that nothing but that list is sent (C64_partial). C64_exact: the claim holds of a board file exactly if it has no hidden board."},
"C65": {"note": "False of the code: both lists are loaded once at the start (C65_refuted), so an old password goes on working (C65_old_password). The exact law is C65_exact; C65_partial covers unchanged lists."},
"C66": {"note": "False of the code only when a directory stands in the place of a list: the read loop never ends (C66_refuted). C66_exact is the exact law; a missing password file leaves a service without users (C66_no_file)."},
"C67": {"note": "Exactly characterised (C67_exact, C67_errors). The part 'not empty' is refuted: empty strings are accepted (C67_refuted)."},
"C68": {"note": "C68_exact: every record, list = old ++ [record as stored], one location changed. 'As it was made' refuted: zero times come back as 2042 and unset links as [0,0]; C68_reads_back_partial gives the exact record."},
"C69": {"note": "Refuted; C69_unique_partial gives the exact condition: the stored (cut to 13 bytes) id is not listed."},
"C70": {"note": "Refuted: no directory is made, so name drawing never ends. C70_usable_partial and C70_exact: it ends iff the directory of the board was there before and one of the names to be drawn was free then."},
"C71": {"note": "C71_created and C71_errors in full; termination refuted (the clock is read once, so only 4096 names exist) with the exact condition in C71_returns_partial."},
"C72": {"note": "Refuted (a title may contain the time line); C72_head_partial: recoverable if the author has no blank and board and title no line end. C72_exact: recoverable exactly if the words for the board stand once in author and board, those for the title once in board and title, and those for the time once in title and time."},
"C73": {"note": "Full: parseFlags is equivalent to an independent inductive specification of the flag rules."},
"C74": {"note": "Refuted for directories with a question mark (the checked and the used directory differ); C74_exact is the exact description."},
"C75": {"note": "Full."},
"C76": {"note": "Refuted: complaints are printed and the status is 0; C76_status_partial: status 2 iff the options are wrong, otherwise 0 unless it crashes or hangs."},
"C77": {"note": "Refuted; C77_crash_exact gives the exact condition for every subcommand."},
"C78": {"note": "C78_list_exact in full; that errors are told is refuted (the error is dropped)."},
"C79": {"note": "Full: C79_reports_exact and C79_post."},
"C80": {"note": "Full: C80_add_board and C80_complaint."},
"C81": {"note": "Refuted (--board is ignored); C81_comments_exact is what is printed."},
"C82": {"note": "Refuted (a board without directory); C82_ends_exact is the exact condition."},
"C83": {"note": "C83_match_exact: preferred match = the specified sequence, both directions; C83_filter_exact and C83_unchanged_exact follow for whole texts."},
"C84": {"note": "Exact in both directions for success, for lines passed over and for lines whose stamp is no time; the trimming it mentions is pinned down by C84_trimmed."},
"C85": {"note": "Exact set of accepted texts and what each gives, for all three layouts. Uniqueness is refuted: spacing, one-digit hours, fractions of a second, letter case and a contradicting day of the week are all accepted."},
"C86": {"note": "Refuted for all four records; the exact theorems say, for every content, which members are read as the C program sees them and what is read instead. Strings trimmed at both ends pick up leftovers behind the terminator; times and money lose their sign; an angel of 13 letters is read with the padding byte behind it; the last 13 members of an online user are read 1, 7 or 9 bytes too early. The partial theorems give the full claim under those conditions."},
"C87": {"note": "Open, create and remove are exact for every state. Refuted: keys that differ by 2^32 are one key, and a segment made with key 0 (or a multiple of 2^32) can never be opened or removed again and stays for ever. The partial theorems give the claims for other keys. System calls are an environment model; each call of the package is one step."},
"C88": {"note": "Proved except for closing twice, which is refuted: the address may belong to another view by then. Partial: addresses not in use again."},
"C89": {"note": "Exact for opening, creating, storing, removing. Refuted: a creation that fails has emptied the file; creating a file again makes accesses to old views fatal. Partial: nobody creates the file again."},
"C90": {"note": "The length is right; the claim about memory is refuted: the kernel writes 112 bytes into a buffer of 104. The exact theorem names the bytes changed. The kernel's structure is trusted input."},
"C91": {"note": "Opening and live reading are proved; the sample program is refuted: it always prints an error or divides by zero."},
"C92": {"note": "Refuted: the position of the NUL and the bytes are read at different times. Partial: nobody writes to the entry meanwhile; always: length and single bytes. For one change at any time C92_one_change says exactly what is read, and C92_new, C92_between, C92_halves, C92_old say when it is the new id, the new entry at the old length, two halves, or the old id. For any number of changes at any times C92_exact says which strings can be read and which cannot."},
"C93": {"note": "Proved for all tables."},
"C94": {"note": "Refuted for all tables that lack some character: everything behind the first such character or invalid byte is dropped (exact law). Partial: texts of Big5 characters."},
"C95": {"note": "Texts survive. The claim for bytes is refuted; exactly the Big5 forms of texts survive, and everything from the first undecodable byte on is dropped."},
"C96": {"note": "Refuted: a cut inside a character leaves U+FFFD. Exact law for all texts and lengths; partial when the boundary is between characters."},
"C97": {"note": "Title contents are exact. The recommendation claim is refuted; exact law, and partial for titles that are the Big5 form of a text."},
"C98": {"note": "Refuted twice: id, password, host, angel and chat name are encoded but not decoded, so a Chinese chat name comes back as raw Big5 bytes; and an article is shown only up to the first character that Big5 lacks. Exact laws; partial for ASCII in those fields and for texts of Big5 characters."},
"C99": {"note": "The code violates the property: the lock is empty and the update writes back what was read earlier. Refuted for two callers. Exact: every schedule behaves as a shared count that callers look at and store; the final count is the old one plus the amounts of some callers, always with the last writer, and every such choice happens. Other records keep their bytes, the other fields keep their values. All are counted when the callers take turns."}
}
