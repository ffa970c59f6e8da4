{"id": "C01", "title": "C-string extraction returns exactly the bytes before the first NUL", "statement": "Converting a fixed-length C string to a Go string/bytes yields exactly the longest NUL-free prefix: the result contains no NUL byte, is a prefix of the input, the byte right after it in the input (if any) is NUL, an input with no NUL is returned whole, and converting the result again changes nothing.", "quantifier": "every byte string of any length", "why_tests_cant": "a test fixes a handful of buffers; the claim is about every buffer contents and length", "anchors": ["cstr.go:CstrToBytes", "cstr.go:CstrToString", "pttbbs/encoding.go:newStringFormCString"]}
{"id": "C02", "title": "Article record survives a save/load cycle (persisted fields)", "statement": "Serialising an article record always yields exactly 128 bytes, and parsing those bytes gives back the same filename, modification time (second, 32-bit), recommendation score, owner, date and title, for every record whose strings fit their fields and neither start nor end with a NUL byte.", "quantifier": "all article records whose strings fit the fixed-width fields, all 32-bit modification times, all int8 scores, every title the Big5 codec round-trips", "why_tests_cant": "field boundary bugs only show for particular lengths/contents; all strings up to the boundary must work", "anchors": ["pttbbs/file.go:MarshalToByte", "pttbbs/file.go:NewFileHeaderWithByte"]}
{"id": "C03", "title": "Saving an article record keeps its money, announcement uid, vote limits and file mode", "statement": "Reading an article record and writing it back must not lose the money / announcement uid / vote limits / file mode stored in it.", "quantifier": "all 128-byte article records", "why_tests_cant": "tests compare only the fields the writer fills in; the claim is about every stored record", "anchors": ["pttbbs/file.go:MarshalToByte", "pttbbs/file.go:NewFileHeaderWithByte", "pttbbs/file.go:UpdateFileHeaderFileRecord"]}
{"id": "C04", "title": "Board record survives a save/load cycle in every field", "statement": "Serialising a board record yields exactly 256 bytes, and parsing them gives back the same board: name, title, moderators, attributes, limits, times, class links, counters and post types.", "quantifier": "all board records whose strings fit their fields (no embedded NUL where the reader cuts at NUL) and whose link lists have two entries", "why_tests_cant": "28 fields at computed offsets; an overlap or off-by-one shows only for specific field values", "anchors": ["pttbbs/board.go:MarshalBinary", "pttbbs/board.go:UnmarshalBoardHeader"]}
{"id": "C05", "title": "User record survives a save/load cycle in every field", "statement": "Serialising a user record yields exactly 512 bytes, and parsing them gives back the same user in every field (including role).", "quantifier": "all user records whose strings fit their fields", "why_tests_cant": "more than sixty fields at computed offsets; overlaps and omissions show only for specific values", "anchors": ["pttbbs/passwd.go:MarshalBinary", "pttbbs/passwd.go:UnmarshalUserec"]}
{"id": "C06", "title": "Online-user record survives a save/load cycle in every field", "statement": "Serialising an online-user (utmp) record and parsing it gives back the same record in every field.", "quantifier": "all online-user records whose strings fit their fields", "why_tests_cant": "dozens of fields at computed offsets; overlapping fields are only visible when both hold non-zero distinct values", "anchors": ["pttbbs/userinfo.go:MarshalUserInfo", "pttbbs/userinfo.go:UnmarshalUserInfo"]}
{"id": "C07", "title": "Favourites file round-trip for trees of any depth", "statement": "Saving a well-formed favourites tree and loading it again gives the same tree (same boards with id, last visit and attributes, same separator lines, same folders with titles, in the same order and nesting), whatever bytes follow it in the file.", "quantifier": "all finite favourites trees (any depth and breadth up to the format's counters) with consistent counters and ids", "why_tests_cant": "recursive format with children stored after all siblings; only induction covers every tree shape", "anchors": ["pttbbs/fav.go:FavFile.MarshalBinary", "pttbbs/fav.go:UnmarshalFavFile", "pttbbs/fav.go:UnmarshalFavFolder"]}
{"id": "C08", "title": "Loading a favourites file never crashes and always terminates", "statement": "For every byte sequence the favourites loader returns either a tree or an error; it never panics and never loops or recurses forever.", "quantifier": "every byte sequence of any length", "why_tests_cant": "malformed inputs are unbounded in number and nesting depth", "anchors": ["pttbbs/fav.go:UnmarshalFavFile", "pttbbs/fav.go:UnmarshalFavFolder", "pttbbs/fav.go:UnmarshalFavItem"]}
{"id": "C09", "title": "Re-saving a loaded favourites file is stable", "statement": "If a favourites file loads, then saving the loaded tree and loading it again yields the same tree, and the counters the loader reports equal the number of items of each folder.", "quantifier": "every byte sequence that the loader accepts", "why_tests_cant": "ranges over all accepted files", "anchors": ["pttbbs/fav.go:UnmarshalFavFile", "pttbbs/fav.go:FavFile.MarshalBinary"]}
{"id": "C10", "title": "Appending records then reading returns them all in order", "statement": "After any sequence of appends to a board's article index (or to the board list), reading the file returns the previous records followed by the appended ones, in order, none lost, duplicated or altered; a missing file starts empty.", "quantifier": "all aligned initial files and all finite sequences of appended records", "why_tests_cant": "unbounded histories", "anchors": ["pttbbs/file.go:AppendFileHeaderFileRecord", "pttbbs/file.go:OpenFileHeaderFile", "pttbbs/board.go:AppendBoardHeaderFileRecord", "pttbbs/board.go:OpenBoardHeaderFile"]}
{"id": "C11", "title": "Updating an article record touches only its own slot", "statement": "Updating the record at index i of an article index of n records replaces record i by the new one and leaves the number of records and every other record byte-for-byte unchanged; an index outside the file must not alter the other records.", "quantifier": "all index files, all indices, all records", "why_tests_cant": "unbounded file sizes and indices, incl. out of range", "anchors": ["pttbbs/file.go:UpdateFileHeaderFileRecord", "pttbbs/pttbss_append_new_line.go:UpdateArticleRecordFileRecord"]}
{"id": "C12", "title": "Removing a board record removes exactly that record", "statement": "Removing the record at index i of a board list of n records leaves exactly the other n-1 records, byte-for-byte and in the same order; a wrong index must not change the file.", "quantifier": "all board list files, all indices, every chunking the copy loop may use", "why_tests_cant": "unbounded file sizes; in-place shifting is sensitive to buffer sizes and boundaries", "anchors": ["pttbbs/board.go:RemoveBoardHeaderFileRecord"]}
{"id": "C13", "title": "A crash while removing a board record never loses another board", "statement": "If the process dies at any point during removal of record i, every other record is still present, whole, in the file (possibly one record appears twice), and no bytes other than those of existing records appear in any slot except at most one torn slot.", "quantifier": "every file, every index, every crash point (between any two byte writes), every chunk schedule of the copy", "why_tests_cant": "crash points and schedules cannot be enumerated by a unit test", "anchors": ["pttbbs/board.go:RemoveBoardHeaderFileRecord"]}
{"id": "C14", "title": "Concurrent modifications of the board list are serialised by the file lock", "statement": "When one client appends a board while another removes one, the final file equals the result of running the two operations in one of the two orders (no acknowledged append is lost).", "quantifier": "all interleavings of the system calls of the two operations", "why_tests_cant": "schedules", "anchors": ["filelock/filelock.go:Lock", "pttbbs/board.go:AppendBoardHeaderFileRecord", "pttbbs/board.go:RemoveBoardHeaderFileRecord"]}
{"id": "C15", "title": "Concurrent appends never lose or mix records", "statement": "If any number of clients append records to the same index concurrently, then afterwards the file contains the old records followed by every appended record exactly once, each whole, in the order in which the kernel performed the writes.", "quantifier": "all interleavings of any number of appenders", "why_tests_cant": "schedules, unbounded number of clients", "anchors": ["pttbbs/file.go:AppendFileHeaderFileRecord", "pttbbs/board.go:AppendBoardHeaderFileRecord"]}
{"id": "C16", "title": "A torn append does not corrupt records appended later", "statement": "If a crash cuts an append short, records appended afterwards are still read back correctly.", "quantifier": "every crash point inside an append, every later append", "why_tests_cant": "crash points", "anchors": ["pttbbs/file.go:AppendFileHeaderFileRecord", "pttbbs/file.go:OpenFileHeaderFile"]}
{"id": "C17", "title": "Reading a record file always terminates", "statement": "Reading users, boards or article records returns (with records or an error) for every behaviour of the underlying file, including a read that fails.", "quantifier": "every finite or failing sequence of read results", "why_tests_cant": "I/O failures and infinite executions cannot be exhausted by tests", "anchors": ["pttbbs/file.go:OpenFileHeaderFile", "pttbbs/board.go:OpenBoardHeaderFile", "pttbbs/passwd.go:OpenUserecFile", "formosabbs/file.go:OpenFormosaBBSFileHeaderFile"]}
{"id": "C18", "title": "Every path built for well-formed ids stays inside BBSHOME", "statement": "For ids and filenames that are single path components, every path the library builds (passwd, board list, favourites, drafts, mail, login log, article index, article, treasure, board name) resolves to a location strictly below the BBS home directory.", "quantifier": "every home directory, every id / filename / treasure path made of single path components", "why_tests_cant": "ranges over all strings", "anchors": ["pttbbs/path.go"]}
{"id": "C19", "title": "No caller-supplied id can reach a file outside BBSHOME", "statement": "Whatever user id, board id, draft id, filename or treasure path a caller supplies, the resulting path resolves below the BBS home directory.", "quantifier": "all strings", "why_tests_cant": "adversarial strings cannot be enumerated", "anchors": ["pttbbs/path.go:GetBoardArticleFilePath", "pttbbs/path.go:GetUserDraftPath"]}
{"id": "C20", "title": "Different objects never share a file", "statement": "Two different objects (user drafts, favourites, mails, login logs, article indexes, articles, treasure files) of well-formed distinct ids are stored at different locations.", "quantifier": "all pairs of objects with well-formed ids", "why_tests_cant": "ranges over all pairs of strings", "anchors": ["pttbbs/path.go"]}
{"id": "C21", "title": "Path construction never crashes", "statement": "For every id the path functions return a path or an error; in particular an empty id yields an error.", "quantifier": "all strings, including the empty one", "why_tests_cant": "ranges over all inputs", "anchors": ["pttbbs/path.go"]}
{"id": "C22", "title": "Building a treasure path does not modify the caller's data", "statement": "Asking for a treasure path leaves the caller's slice of path components, and any slice sharing its storage, unchanged.", "quantifier": "all component slices with any spare capacity", "why_tests_cant": "aliasing shows only for slices with spare capacity shared with other data", "anchors": ["pttbbs/path.go:GetBoardTreasuresDirectoryPath", "pttbbs/path.go:GetBoardTreasureFilePath"]}
{"id": "C23", "title": "User drafts behave as a per-user, per-slot store", "statement": "For every history of draft writes, deletes and reads, reading a draft returns the content most recently written for that user and draft id and not deleted since, or empty if there is none; operations on one draft never affect another user's or another slot's draft.", "quantifier": "all finite operation histories over well-formed user and draft ids", "why_tests_cant": "unbounded histories", "anchors": ["bbs.go:GetUserDrafts", "bbs.go:WriteUserDraft", "bbs.go:DeleteUserDraft", "pttbbs/draft.go"]}
{"id": "C24", "title": "A newly created article gets a filename nobody else has", "statement": "Creating an article returns a filename which did not exist on the board before, and creates it empty; existing articles are untouched; any number of concurrent creators obtain pairwise different filenames.", "quantifier": "all board contents, all clocks and random draws, all interleavings of creators", "why_tests_cant": "schedules and random draws", "anchors": ["bbs.go:CreateArticleRecord", "pttbbs/pttbbs_write_article_connector.go:CreateBoardArticleFilename"]}
{"id": "C25", "title": "Creating an article always returns", "statement": "Creating an article either returns a filename or an error; it never loops forever, e.g. when the board directory is missing or every name of that second is taken.", "quantifier": "all board states", "why_tests_cant": "non-termination cannot be observed by a finite test", "anchors": ["pttbbs/pttbbs_write_article_connector.go:CreateBoardArticleFilename"]}
{"id": "C26", "title": "Writing an article replaces its content", "statement": "After writing content to an article, reading the article returns exactly that content, whatever it contained before.", "quantifier": "all previous and new contents", "why_tests_cant": "ranges over all pairs of contents (shorter, equal, longer)", "anchors": ["bbs.go:WriteBoardArticleFile", "pttbbs/pttbbs_write_article_connector.go:WriteBoardArticleFile", "bbs.go:ReadBoardArticleFile"]}
{"id": "C27", "title": "Appending to an article only adds at the end", "statement": "Appending content to an existing article makes a later read return the old content followed by the new; no other file changes; appending to a missing article is an error and creates nothing.", "quantifier": "all contents, all histories of appends", "why_tests_cant": "unbounded histories", "anchors": ["bbs.go:AppendBoardArticleFile", "pttbbs/pttbss_append_new_line.go:AppendBoardArticleFile"]}
{"id": "C28", "title": "A freshly created and added article reads back as created", "statement": "Creating an article record, adding it to a board and reading the board yields a last record with the same filename, owner, date, title and modification time as the record that was added.", "quantifier": "all owners, dates, titles that fit; the default modification time", "why_tests_cant": "the stored time wraps modulo 2^32, which shows only for particular times (incl. the zero time the library itself uses)", "anchors": ["pttbbs/pttbbs_write_article_connector.go:NewArticleRecord", "bbs.go:AddArticleRecordFileRecord", "pttbbs/file.go:MarshalToByte"]}
{"id": "C29", "title": "Recommendation score accumulates correctly", "statement": "After any sequence of recommendation updates the score equals the initial score plus the sum of the updates.", "quantifier": "all sequences of int8 updates", "why_tests_cant": "unbounded sequences and wrap-around", "anchors": ["pttbbs/file.go:AddRecommend", "pttbbs/file.go:Recommend"]}
{"id": "C30", "title": "Independently opened databases are independent", "statement": "Opening a second database with a different home does not change the files the first one accesses.", "quantifier": "all pairs of data source names", "why_tests_cant": "needs all pairs / histories of opens", "anchors": ["bbs.go:Open", "bbs.go:Register", "pttbbs/pttbbs.go:Connector.Open"]}
{"id": "C31", "title": "Data source name selects the home directory", "statement": "Opening `file://H?args` uses home H for every H without '?', and opening a plain path uses that path.", "quantifier": "all strings", "why_tests_cant": "ranges over all strings", "anchors": ["pttbbs/pttbbs.go:Connector.Open"]}
{"id": "C32", "title": "A user's article list is complete and sound", "statement": "The article list of a user contains, board by board in board order and record order, exactly the records owned by that user on every board except ALLPOST, each with its board id, title and filename; boards without an index contribute nothing.", "quantifier": "all board lists and board indexes", "why_tests_cant": "unbounded number of boards and records", "anchors": ["bbs.go:GetUserArticleRecordFile", "bbs.go:ReadBoardArticleRecordsFile"]}
{"id": "C33", "title": "A user's comment list is complete and sound", "statement": "The comment list of a user contains, in board, article and line order, exactly the comment lines owned by that user in every article of every board except ALLPOST.", "quantifier": "all board lists, indexes and article contents", "why_tests_cant": "unbounded contents", "anchors": ["bbs.go:GetUserCommentRecordFile", "bbs.go:GetBoardUserCommentRecord", "bbs.go:GetBoardArticleCommentRecords"]}
{"id": "C34", "title": "Comment floor numbers are consecutive from 1", "statement": "The comments of an article are numbered 1, 2, 3, … in line order; non-comment lines do not consume a number.", "quantifier": "all article contents (below 2^32 comments)", "why_tests_cant": "unbounded contents", "anchors": ["bbs.go:GetBoardArticleCommentRecords"]}
{"id": "C35", "title": "Long lines do not hide later comments", "statement": "Every comment line of an article is reported, however long the other lines are, or else an error is returned.", "quantifier": "all article contents", "why_tests_cant": "line lengths above the scanner's limit are not in the tests", "anchors": ["bbs.go:GetBoardArticleCommentRecords", "pttbbs/bad_logins.go:OpenBadLoginFile"]}
{"id": "C36", "title": "Favourites resolve to board names", "statement": "Reading a user's favourites gives, for each board entry at any depth, the name of the board whose 1-based number it stores, keeps folders and lines unchanged, and an entry for a missing board must not crash the reader.", "quantifier": "all favourites trees and board lists", "why_tests_cant": "trees of any depth; stale board numbers", "anchors": ["pttbbs/pttbbs.go:ReadUserFavoriteRecordsFile", "pttbbs/pttbbs.go:appendBoardID"]}
{"id": "C37", "title": "ANSI filtering only deletes escape sequences", "statement": "Filtering ANSI codes leaves text without an escape introducer unchanged, never invents or reorders characters (the result is a subsequence of the input), and removes each well-formed colour sequence.", "quantifier": "all strings", "why_tests_cant": "ranges over all strings", "anchors": ["ansi.go:FilterStringANSI"]}
{"id": "C38", "title": "ANSI filtering is idempotent", "statement": "Filtering an already filtered string changes nothing (no escape sequence survives).", "quantifier": "all strings", "why_tests_cant": "nested sequences that form only after deletion", "anchors": ["ansi.go:FilterStringANSI"]}
{"id": "C39", "title": "A well-formed comment line is parsed into its parts", "statement": "A line `<tag> <owner>: <text> <MM/DD HH:MM>` is recognised as a comment of that owner at that time whose text is the given text (trimmed), for every owner id and every text.", "quantifier": "all owners, texts and valid times", "why_tests_cant": "texts containing colons, digits or timestamps", "anchors": ["user_comment_record.go:parseUserComment", "user_comment_record.go:NewUserCommentRecord"]}
{"id": "C40", "title": "Bad-login lines survive a save/load cycle", "statement": "Formatting a login attempt and parsing it gives back the same attempt (success flag, user id, time, host).", "quantifier": "all user ids up to 12 bytes without surrounding blanks, all seconds of years 0-9999, all hosts", "why_tests_cant": "ranges over all ids, times and hosts", "anchors": ["pttbbs/bad_logins.go:MarshalText", "pttbbs/bad_logins.go:UnmarshalText"]}
{"id": "C41", "title": "Parsing a login log never crashes", "statement": "For every line the bad-login / recent-login parsers return a record or an error.", "quantifier": "every byte string", "why_tests_cant": "ranges over all lines, incl. empty and truncated ones", "anchors": ["pttbbs/bad_logins.go:UnmarshalText", "pttbbs/login_recent.go:NewLoginRecentRecord"]}
{"id": "C42", "title": "Password hash has the crypt(3) shape", "statement": "Hashing a key with a two-character salt yields 13 characters (NUL padded to 14): the salt followed by 11 characters of the crypt alphabet [./0-9A-Za-z].", "quantifier": "all keys and all salts of at least two ASCII bytes", "why_tests_cant": "ranges over all keys and salts", "anchors": ["crypt/crypt.go:cFcrypt", "crypt/bbscrypt.go:Fcrypt"]}
{"id": "C43", "title": "Only the first eight 7-bit characters of a password count", "statement": "Two passwords which agree on the low seven bits of their first eight bytes (up to the first NUL) have the same hash for every salt.", "quantifier": "all pairs of keys, all salts", "why_tests_cant": "ranges over all pairs", "anchors": ["crypt/crypt.go:cFcrypt"]}
{"id": "C44", "title": "Password verification accepts exactly matching hashes", "statement": "For a stored hash, verification succeeds iff hashing the candidate with the hash's own first two characters gives the stored hash; in particular a user whose hash was made from password p (any salt) can always log in with p, and a candidate with a different hash is always rejected.", "quantifier": "all passwords, salts and stored hashes", "why_tests_cant": "ranges over all passwords", "anchors": ["pttbbs/passwd.go:VerifyPassword", "crypt/crypt.go:cFcrypt"]}
{"id": "C45", "title": "The hash function is DES crypt(3)", "statement": "Hashing equals the published algorithm: 25 iterations of DES (FIPS 46 tables) on the zero block keyed by the password with the expansion permuted by the 12 salt bits, printed in the crypt alphabet.", "quantifier": "all keys and valid salts", "why_tests_cant": "a table or rotation error can show on a vanishing fraction of keys", "anchors": ["crypt/crypt.go", "crypt/const.go", "crypt/utils.go"]}
{"id": "C46", "title": "Password verification never crashes", "statement": "Verifying any password against any stored user record (including one with an empty or malformed hash) returns success or an error.", "quantifier": "all user records and passwords", "why_tests_cant": "ranges over all records", "anchors": ["pttbbs/passwd.go:VerifyPassword", "crypt/crypt.go:cFcrypt"]}
{"id": "C47", "title": "Board attribute queries read independent bits", "statement": "Each board setting query depends on exactly one attribute bit; setting or clearing that bit flips this query and no other.", "quantifier": "all 2^32 attribute words", "why_tests_cant": "2^32 words", "anchors": ["pttbbs/board.go:IsHide", "pttbbs/board.go:IsOver18"]}
{"id": "C48", "title": "User settings report the user's own flags", "statement": "Looking up the settings of a user id returns the flags of the first record with that id, each flag depending on exactly its own bit, and an error iff no record has that id.", "quantifier": "all user lists and all 2^32 flag words", "why_tests_cant": "unbounded lists, 2^32 words", "anchors": ["pttbbs/usersettings.go:getUserFlagAllByID"]}
{"id": "C49", "title": "Board moderators list is faithful", "statement": "The moderators list of a board, joined by '/', is the stored moderators string, no listed name contains '/', and an empty string gives an empty list.", "quantifier": "all strings", "why_tests_cant": "ranges over all strings", "anchors": ["pttbbs/board.go:BM"]}
{"id": "C50", "title": "Shared-memory cache fields do not overlap", "statement": "For every valid layout setting, the regions of version, size, user ids, hash links, money, cooldown, hash heads, counters and online users are pairwise disjoint, increasing and the integer tables are aligned; entries of different users are disjoint and inside their table.", "quantifier": "all layout settings and all user numbers in range", "why_tests_cant": "ranges over all settings", "anchors": ["pttbbs/cache.go:caculatePos", "pttbbs/cache.go:UserID", "pttbbs/cache.go:Money"]}
{"id": "C51", "title": "Reading the cache never crashes for users in range", "statement": "With any settings and a sufficiently large segment, reading the id, money and online record of any user number in range returns a value.", "quantifier": "all settings, all user numbers in range, all segment contents", "why_tests_cant": "ranges over all settings", "anchors": ["pttbbs/cache.go:caculatePos", "pttbbs/cache.go:UserInfo"]}
{"id": "C52", "title": "Cache connection string selects the right back-end", "statement": "`file:P` and a plain `P` open the file P, `shmkey:N` opens key N, any other scheme is an error.", "quantifier": "all strings", "why_tests_cant": "ranges over all strings", "anchors": ["cache/cache.go:NewCache"]}
{"id": "C53", "title": "Hash with custom offset is FNV-1a and streams", "statement": "The hash started at a given offset equals FNV-1a folded from that offset over all bytes written, independent of how the bytes are split into writes.", "quantifier": "all offsets, all byte strings, all splits", "why_tests_cant": "ranges over all strings and splits", "anchors": ["pttbbs/internal/fnv/fnv.go:New32aWith"]}
{"id": "C54", "title": "A token is issued only to the owner of the password", "statement": "The token endpoint returns an access token iff the user exists and the password verifies against the first record with that id; otherwise it returns an error and no token.", "quantifier": "all user lists and credentials", "why_tests_cant": "ranges over all lists and credentials", "anchors": ["serverlet/route_token.go:postToken"]}
{"id": "C55", "title": "Protected user endpoints require permission", "statement": "User-specific data is returned only when the request's token permits it.", "quantifier": "all requests", "why_tests_cant": "ranges over all requests/tokens", "anchors": ["serverlet/permissions.go", "serverlet/route_users.go"]}
{"id": "C56", "title": "No request path can crash the server", "statement": "For every request path the router answers (data, error or not-found) without panicking.", "quantifier": "all request paths", "why_tests_cant": "ranges over all strings", "anchors": ["serverlet/route_users.go:parseUserPath", "serverlet/route_classes.go", "serverlet/route_boards.go"]}
{"id": "C57", "title": "Command-line options are parsed as documented", "statement": "The tool maps every `--key value` pair after the subcommand to key ↦ value, later pairs overriding earlier ones, and ignores a trailing key without value.", "quantifier": "all argument lists", "why_tests_cant": "unbounded lists", "anchors": ["cmd/bbstool/main.go:parseArgsToMap"]}
{"id": "C58", "title": "Formosa article index is decoded field by field", "statement": "Each 248-byte record decodes to the filename, owner, title, time and post number at their documented positions, independent of the other bytes, and a file of n records yields n records.", "quantifier": "all files", "why_tests_cant": "ranges over all contents", "anchors": ["formosabbs/file.go:NewFomosaBBSFileHeaderWithByte", "formosabbs/file.go:OpenFormosaBBSFileHeaderFile"]}
{"id": "C59", "title": "Answers do not leak secrets", "statement": "Except for the login itself, no answer of the HTTP service depends on the password hashes, mail addresses, addresses or registration texts in the password file.", "quantifier": "all pairs of password files equal on the public fields, all requests", "why_tests_cant": "compares all pairs of states", "anchors": ["serverlet/route_users.go:getUserInformation"]}
{"id": "C60", "title": "An issued token can be used for half an hour", "statement": "A token issued at any moment has an expiry such that it is unexpired throughout the following 1800 seconds.", "quantifier": "all successful logins at all moments", "why_tests_cant": "ranges over all moments", "anchors": ["serverlet/route_token.go:newAccessTokenWithUsername"]}
{"id": "C61", "title": "Login secrets stay out of the log", "statement": "What the token endpoint writes to the log depends neither on the password typed nor on any stored password hash.", "quantifier": "all password files and requests", "why_tests_cant": "compares all pairs of states", "anchors": ["serverlet/route_token.go:postToken", "serverlet/route_token.go:verifyPassword"]}
{"id": "C62", "title": "Decoding and encoding records never crash", "statement": "Whatever byte slice is handed to a record decoder (article, board, user, online user, Formosa article), the call returns; and no encoder can write outside its buffer.", "quantifier": "every byte slice with any length and capacity; every record value", "why_tests_cant": "tests decode whole records only; the claim is about every length, every capacity and every content", "anchors": ["pttbbs/file.go:NewFileHeaderWithByte", "pttbbs/board.go:UnmarshalBoardHeader", "pttbbs/passwd.go:UnmarshalUserec", "pttbbs/userinfo.go:UnmarshalUserInfo", "formosabbs/file.go:NewFomosaBBSFileHeaderWithByte"]}
{"id": "C63", "title": "Every address of the service leads where it should", "statement": "/v1/boards lists the boards; /v1/classes/… is not implemented; /v1/users/{id}/information answers for the first record with that id, /favorites is not implemented, anything else below is not found; the two subtrees without their slash and every non-canonical spelling (empty, '.' and '..' segments) are redirected to the canonical path, which is never redirected again; every other path is not found; the token of a request is the second word of its Authorization header.", "quantifier": "all paths with any number of segments, all methods, all states", "why_tests_cant": "infinitely many paths and spellings", "anchors": ["serverlet/main.go:main", "serverlet/route_users.go:getUsers", "serverlet/route_boards.go:getBoards", "serverlet/route_classes.go:getClasses", "serverlet/route_token.go:getTokenFromRequest"]}
{"id": "C64", "title": "Hidden boards are not listed to anonymous visitors", "statement": "A request without a token never receives a board whose hide flag is set.", "quantifier": "all board lists, all requests", "why_tests_cant": "depends on every flag combination and every request", "anchors": ["serverlet/route_boards.go:getBoards", "pttbbs/board.go:IsHide"]}
{"id": "C65", "title": "The service answers from the files as they are now", "statement": "After another program changes the password or board file, the next request is answered as by a service started on the changed files.", "quantifier": "all disks, all histories of changes and requests", "why_tests_cant": "needs every interleaving of disk changes and requests", "anchors": ["serverlet/main.go:loadPasswdsFile", "serverlet/main.go:loadBoardFile"]}
{"id": "C66", "title": "The service comes up whatever is on the disk", "statement": "Starting the service ends in a listening server for every content of the home directory, with exactly the users and boards of the files.", "quantifier": "all file systems, all working directories", "why_tests_cant": "all file systems", "anchors": ["serverlet/main.go:main", "bbs.go:ReadUserRecords", "bbs.go:ReadBoardRecords"]}
{"id": "C67", "title": "A new board has an id and a title", "statement": "Making a board record from an argument map succeeds exactly when board_id and title are given as strings and are not empty; the record has them and every other field unset; otherwise the first bad argument is named.", "quantifier": "all argument maps", "why_tests_cant": "all maps with values of any type", "anchors": ["pttbbs/pttbbs_write_board_connector.go:NewBoardRecord"]}
{"id": "C68", "title": "An added board appears at the end of the board list as it was made", "statement": "After a successful addition the board list is the old one followed by the added record, every field as made, and no other file has changed.", "quantifier": "all file systems, homes, codecs and records", "why_tests_cant": "all existing lists and all field values", "anchors": ["bbs.go:AddBoardRecord", "pttbbs/pttbbs_write_board_connector.go:AddBoardRecordFileRecord"]}
{"id": "C69", "title": "Board ids stay different", "statement": "If all listed boards have different ids, they still do after a board is added.", "quantifier": "all board lists and records", "why_tests_cant": "all lists, and ids that only collide after truncation", "anchors": ["bbs.go:AddBoardRecord"]}
{"id": "C70", "title": "One can post in a board that was just added", "statement": "After a board has been added, drawing a name for an article in it ends.", "quantifier": "all file systems, boards and sequences of draws", "why_tests_cant": "non-termination for every sequence of draws", "anchors": ["bbs.go:AddBoardRecord", "pttbbs/pttbbs_write_article_connector.go:CreateBoardArticleFilename"]}
{"id": "C71", "title": "Making an article from an argument map gives it a fresh file and ends", "statement": "With owner, date, title and board_id given, the call ends and returns a record with these and a file name that did not exist before; the file then holds the four in the fixed form; nothing else changes. Otherwise the first missing argument is named and nothing changes.", "quantifier": "all file systems, argument maps, clocks and sequences of random numbers", "why_tests_cant": "termination over all random sequences; all directory contents", "anchors": ["pttbbs/pttbbs_write_article_connector.go:NewArticleRecordWithMap"]}
{"id": "C72", "title": "The first lines of an article tell who wrote what where and when", "statement": "From the head of a new article its author, board, title and time can be recovered.", "quantifier": "all authors, boards, titles and dates", "why_tests_cant": "all strings, including ones imitating the labels", "anchors": ["pttbbs/pttbbs_write_article_connector.go:NewArticleRecordWithMap"]}
{"id": "C73", "title": "The tool's own options are recognised by the rules of Go's flag package", "statement": "A command line is split into the options -driver and -bbshome (one or two dashes, value after = or as the next word, the last one winning) and the words from the first non-option or after --; anything else that looks like an option is an error, -h and -help ask for help.", "quantifier": "all command lines", "why_tests_cant": "all lists of byte strings", "anchors": ["cmd/bbstool/main.go:main"]}
{"id": "C74", "title": "The tool works on the directory it was given", "statement": "If the driver is pttbbs and the home directory exists, the tool opens exactly that directory; otherwise it opens nothing.", "quantifier": "all file systems and option values", "why_tests_cant": "all path strings, including ones with the separators of the connection string", "anchors": ["cmd/bbstool/main.go:openDB", "cmd/bbstool/main.go:chkIsDir", "pttbbs/pttbbs.go:Open"]}
{"id": "C75", "title": "Showing changes nothing", "statement": "Whatever the command line, unless its subcommand is add_board or add_board_article, the tool leaves every file as it was.", "quantifier": "all command lines and file systems", "why_tests_cant": "all command lines and all disk contents", "anchors": ["cmd/bbstool/main.go:main", "cmd/bbstool/articles.go:showBoardArticleList", "cmd/bbstool/articles.go:showBoardArticle"]}
{"id": "C76", "title": "The exit status of the tool tells whether it succeeded", "statement": "If the tool exits with status 0 it has reported no error.", "quantifier": "all command lines and file systems", "why_tests_cant": "all command lines and all disk contents", "anchors": ["cmd/bbstool/main.go:main"]}
{"id": "C77", "title": "No command line makes the tool crash", "statement": "The tool never ends with a panic.", "quantifier": "all command lines and file systems", "why_tests_cant": "all command lines and all disk contents", "anchors": ["cmd/bbstool/main.go:showuserarticlelist", "cmd/bbstool/main.go:showusercommentlist", "cmd/bbstool/articles.go:showBoardArticleList", "cmd/bbstool/articles.go:addBoardArticle", "cmd/bbstool/articles.go:showBoardArticle", "bbs.go:GetUserArticleRecordFile", "bbs.go:GetUserCommentRecordFile"]}
{"id": "C78", "title": "The tool lists the articles of a board, or says why it cannot", "statement": "One line per record with a file name, in the order of the list, with name, owner, date and title; if the list cannot be read an error is printed.", "quantifier": "all file systems, boards and option values", "why_tests_cant": "all disk contents", "anchors": ["cmd/bbstool/articles.go:showBoardArticleList"]}
{"id": "C79", "title": "What the tool posts can be shown again", "statement": "A new file name is reported iff all steps succeeded; then the name was free, showing that article prints the text posted, the list of the board has gained exactly the new record, and no other file has changed.", "quantifier": "all file systems, arguments, clocks and random numbers", "why_tests_cant": "all disk contents, texts and draws", "anchors": ["cmd/bbstool/articles.go:addBoardArticle", "cmd/bbstool/articles.go:showBoardArticle"]}
{"id": "C80", "title": "A board added with the tool is listed last", "statement": "If add_board prints no complaint, an id and a title were given, the board list has gained exactly that board at its end and no other file has changed; the list of titles shows it last. If it complains nothing has changed.", "quantifier": "all file systems and arguments", "why_tests_cant": "all disk contents and argument lists", "anchors": ["cmd/bbstool/main.go:addboard", "cmd/bbstool/main.go:showboardlist"]}
{"id": "C81", "title": "The tool shows the comments of a user on the board asked for", "statement": "show_user_comment_list prints the comments of the user, and with --board only those on that board.", "quantifier": "all file systems and arguments", "why_tests_cant": "all disk contents and argument lists", "anchors": ["cmd/bbstool/main.go:showusercommentlist", "user_comment_record.go:String"]}
{"id": "C82", "title": "Posting with the tool ends", "statement": "add_board_article ends, with a new article or an error message.", "quantifier": "all file systems, arguments, clocks and random numbers", "why_tests_cant": "termination over all random sequences", "anchors": ["cmd/bbstool/articles.go:addBoardArticle", "pttbbs/pttbbs_write_article_connector.go:CreateArticleRecord"]}
{"id": "C83", "title": "The ANSI filter deletes exactly the escape sequences of a text", "statement": "At every position the filter finds an escape sequence exactly when one starts there: ESC or U+009B, all introducers that follow, then title characters up to BEL, or else the longest run of parameters with a final character. It deletes those, from left to right, and nothing else; a text is unchanged exactly when it has none.", "quantifier": "all texts", "why_tests_cant": "the expression backtracks over unboundedly many parameter groups and final digits", "anchors": ["ansi.go:FilterStringANSI"]}
{"id": "C84", "title": "A line is a comment exactly when it contains one", "statement": "A line is read as a comment with a given owner, time and text exactly when its leftmost owner-colon-body-stamp, taken up to the last stamp on the line, has them; it is passed over exactly when there is none anywhere in it; any other failure means the stamp found is not the text of a time.", "quantifier": "all lines", "why_tests_cant": "ranges over all lines, including several owners and stamps on one line, invalid UTF-8 and impossible dates", "anchors": ["user_comment_record.go:parseUserComment"]}
{"id": "C85", "title": "Which texts count as times", "statement": "For the three time layouts of the code (recent logins, failed logins, comments), a text is accepted exactly when it spells an existing date and time in the documented form, and the time read is the one it spells. A text that is accepted is the only text for that time (the one the writer produces), so the day of the week agrees with the date.", "quantifier": "all byte strings and all calendar times", "why_tests_cant": "The set of accepted texts is infinite, with free spacing, optional fractions of any length, one-digit hours and any letter case for day names; only a proof can say nothing else is accepted.", "anchors": ["pttbbs/login_recent.go:61-74", "pttbbs/bad_logins.go:109-172", "user_comment_record.go:105-125"]}
{"id": "C86", "title": "Records are read where the C compiler put them", "statement": "With the structures of pttstruct.h laid out by natural alignment, decoding a record of any content yields every member with the value the C program sees: strings up to their terminator, signed times and amounts, small integers, arrays.", "quantifier": "all contents of article, board, user and online-user records", "why_tests_cant": "The records are arbitrary byte strings of 128 to 3484 bytes; the fixtures never hold leftovers behind a terminator, negative times or non-zero tail members.", "anchors": ["pttbbs/file.go:41-49", "pttbbs/file.go:199-228", "pttbbs/board.go:121-150", "pttbbs/board.go:273-315", "pttbbs/passwd.go:30-86", "pttbbs/passwd.go:233-303", "pttbbs/userinfo.go:12-75", "pttbbs/userinfo.go:168-253"]}
{"id": "C87", "title": "A System V key names exactly one segment", "statement": "Opening a key shows exactly the segment with that key, in full length; without one it fails. Creating with a size shows the start of the existing segment, refuses a longer one, or makes a segment of zeros. Keys that differ open different segments. What was created with a key can be removed with it; then the key opens nothing and everything open shows what it showed.", "quantifier": "all tables the kernel can reach by any calls of any processes, all keys and sizes of 64 bits", "why_tests_cant": "The states are sequences of calls of any length by any number of processes; the aliases differ by 2^32.", "anchors": ["cache/systemvshm.go:43-106", "cache/systemvshm_unix.go:11-46"]}
{"id": "C88", "title": "Open views of shared memory show the stores, and nothing else, until they are closed", "statement": "A store is seen at its place through every view of the same segment and nowhere else. No other call changes what a view shows; it can be read until it is closed. Closing a view, even twice, disturbs no other view.", "quantifier": "all reachable kernel tables, all views, all sequences of calls", "why_tests_cant": "It ranges over all interleavings of calls by all processes, including removal while attached and reuse of addresses.", "anchors": ["cache/systemvshm.go:39-123"]}
{"id": "C89", "title": "Mapped files", "statement": "Opening a file shows exactly its content; creating makes a file of zeros of the given size, touches no other file, and leaves everything as it was when it fails; stores reach the file and every view; a view can be read until it is closed, even when the file is removed; the content outlasts the views.", "quantifier": "all reachable sets of files and views, all paths, sizes and sequences of calls", "why_tests_cant": "It ranges over all sequences of calls, including creating a file that others have mapped and sizes that are refused after the file was emptied.", "anchors": ["cache/mmap.go:15-87", "cache/mmap_unix.go:11-22"]}
{"id": "C90", "title": "The state buffer holds what the kernel writes", "statement": "Asking the kernel for the state of a segment changes no memory outside the buffer, and the length taken from the buffer is the one the kernel reported.", "quantifier": "all memories, buffer addresses and states", "why_tests_cant": "The damage is to whatever memory lies behind the buffer; no test looks there.", "anchors": ["cache/systemvshm_linux.go:11-33", "cache/systemvshm.go:58-67"]}
{"id": "C91", "title": "A cache opened by a connection string shows the memory it names, live", "statement": "shmkey:n opens the segment of key n, file:p or p opens the file p, in full. After any process stores a user's money the open cache reads it, and everyone else's as before. The sample program prints the version, an id and an amount when its file is there.", "quantifier": "all memories, connection strings, valid layouts, users and amounts", "why_tests_cant": "Layouts, users and stores are unbounded; the sample program has no test.", "anchors": ["cache/cache.go:16-36", "pttbbs/cache.go:293-328", "pttbbs/cmd/main.go:9-22"]}
{"id": "C92", "title": "A user id read beside a writer", "statement": "The id read is one that the entry held at some time during the reading.", "quantifier": "all histories of the shared memory during the reading, all positions and lengths", "why_tests_cant": "It needs a write by another process between two instructions.", "anchors": ["pttbbs/cache.go:315-321"]}
{"id": "C93", "title": "ASCII text is the same in UTF-8 and Big5", "statement": "Utf8ToBig5 and Big5ToUtf8 pass a run of ASCII bytes through unchanged, whatever follows it.", "quantifier": "all strings, all continuations, all conversion tables", "why_tests_cant": "Tests convert three fixed strings.", "anchors": ["big5.go:27-37"]}
{"id": "C94", "title": "Encoding loses only the characters Big5 does not have", "statement": "Utf8ToBig5 writes every character of a valid text that Big5 has, in order, and leaves out the others.", "quantifier": "all texts and conversion tables", "why_tests_cant": "The error of the encoder is discarded, so a test with common characters sees nothing.", "anchors": ["big5.go:27-31", "cmd/bbstool/articles.go:93"]}
{"id": "C95", "title": "Big5 text survives conversion there and back", "statement": "A text of Big5 characters is the same after encoding and decoding. Bytes read from a file and written back are unchanged.", "quantifier": "all texts, all byte strings, all tables that fit together", "why_tests_cant": "The bytes that do not survive are broken characters left by earlier cuts; test fixtures hold whole characters.", "anchors": ["big5.go:27-37"]}
{"id": "C96", "title": "A text cut at the end of a field ends with a whole character", "statement": "When the Big5 form of a text is cut at n bytes and read back, the result is a beginning of the text.", "quantifier": "all Big5 texts and lengths n", "why_tests_cant": "It depends on the parity of the double-byte characters before every boundary.", "anchors": ["big5.go:27-37", "pttbbs/encoding.go:7-13", "pttbbs/file.go:239", "pttbbs/board.go:320-321", "pttbbs/fav.go:467"]}
{"id": "C97", "title": "Titles in records, and what a recommendation does to them", "statement": "An article or board title read back is the characters that fit the field. Reading a record, changing the recommendation count and writing it back leaves the title bytes as they were.", "quantifier": "all Big5 titles, all 128-byte records, all count changes", "why_tests_cant": "Fixture titles are short and whole; the title is damaged only when its bytes are not the Big5 form of a text.", "anchors": ["pttbbs/file.go:85", "pttbbs/file.go:210", "pttbbs/file.go:239", "pttbbs/board.go:276-277", "pttbbs/board.go:320-321", "big5.go:27-37"]}
{"id": "C98", "title": "Texts of Big5 characters survive in records and articles", "statement": "Every text of a user record or an online record that consists of Big5 characters and fits its field is read back as it was written. An article posted with the tool is shown as it was typed.", "quantifier": "all records, all texts, all tables that fit together, all runs of the tool", "why_tests_cant": "Test records hold ASCII in the fields that are encoded but not decoded, and no test types a character outside Big5.", "anchors": ["pttbbs/userinfo.go:176-231", "pttbbs/userinfo.go:264-347", "pttbbs/passwd.go:236-295", "pttbbs/passwd.go:309-377", "cmd/bbstool/articles.go:60-127", "big5.go:27-37"]}
{"id": "C99", "title": "Pushes of several callers on one article are all counted", "statement": "When several callers read an article record, add their amount to the recommendation count and write the record back, the final count is the old one plus all the amounts, whatever the order of the calls; other records and other fields do not change.", "quantifier": "all article lists, all record numbers, all numbers of callers, all amounts, all interleavings of their reads and writes, with appends of other processes in between", "why_tests_cant": "A lost update needs two callers between each other's read and write; tests have one caller.", "anchors": ["pttbbs/file.go:85", "pttbbs/file.go:104-133", "pttbbs/file.go:165-197", "pttbbs/pttbss_append_new_line.go:26-32", "filelock/filelock.go:5-21"]}
{"id": "C100", "title": "A reader sees a list that existed", "statement": "A process that reads an article list or the board list while others write it gets the list as the file held it at some moment; in particular no board that stays is missing while another one is removed.", "quantifier": "all lists, all schedules of appends, updates and removal steps, all moments of the single reads", "why_tests_cant": "Tests read files that nobody writes; the wrong lists need writes that fall between two reads of the loop.", "anchors": ["pttbbs/file.go:104-133", "pttbbs/file.go:135-163", "pttbbs/file.go:165-197", "pttbbs/board.go:171-199", "pttbbs/board.go:228-268", "filelock/filelock.go:5-21"]}
{"id": "C101", "title": "A draft being saved is the old text or the new one", "statement": "Whenever the process that saves a draft dies, the draft file holds the old text or the new one. When several processes save the same draft, it ends as the text of one of them.", "quantifier": "all old and new texts, all crash points, all numbers of writers, all interleavings of their system calls", "why_tests_cant": "There is no test that stops a save half-way or runs two saves at once; the window is between truncation and write.", "anchors": ["pttbbs/draft.go:19-21", "bbs.go:729-738"]}
{"id": "C102", "title": "A listed article is complete, wherever the posting tool dies", "statement": "Wherever the tool dies while it posts an article, every article that the list has gained has a file that holds the whole text; the earlier entries, and all other files, are as before.", "quantifier": "all file systems, records, texts, draws and crash points, including a write that stored only its first bytes", "why_tests_cant": "every byte of the record and of the text is a crash point, over all disk contents", "anchors": ["cmd/bbstool/articles.go:addBoardArticle", "bbs.go:CreateArticleRecord", "bbs.go:AddArticleRecordFileRecord", "bbs.go:WriteBoardArticleFile"]}
{"id": "C103", "title": "The database behaves as a map from objects to contents", "statement": "For every history of calls of the library on users, boards, articles, treasures, favourites and drafts, each call answers as a plain map from objects to contents would, and afterwards each object holds what the map says. A call changes nothing but the objects it is meant to change, and calls on different objects may change places.", "quantifier": "all file systems, histories of calls of any length, names, contents, records, drawn article names", "why_tests_cant": "unbounded histories mixing fifteen kinds of calls over all disk contents and names", "anchors": ["bbs.go:ReadUserRecords", "bbs.go:ReadUserFavoriteRecords", "bbs.go:ReadBoardRecords", "bbs.go:ReadBoardArticleRecordsFile", "bbs.go:ReadBoardTreasureRecordsFile", "bbs.go:ReadBoardArticleFile", "bbs.go:ReadBoardTreasureFile", "bbs.go:AddBoardRecord", "bbs.go:CreateArticleRecord", "bbs.go:AddArticleRecordFileRecord", "bbs.go:WriteBoardArticleFile", "bbs.go:AppendBoardArticleFile", "bbs.go:GetUserDrafts", "bbs.go:DeleteUserDraft", "bbs.go:WriteUserDraft"]}
{"id": "C104", "title": "The body of every answer says exactly what the record says", "statement": "Every body the service writes is valid UTF-8 and valid JSON. A client that reads it finds one object per board in the order of the file, or the object of the user asked for, with every exported field as it is stored.", "quantifier": "all board and user files, all Big5 tables, all zones, all answers", "why_tests_cant": "unbounded lists and all byte strings in every text field, including broken UTF-8 and characters with escapes", "anchors": ["serverlet/route_boards.go:getBoards", "serverlet/route_users.go:getUserInformation", "serverlet/route_token.go:postToken"]}
{"id": "C105", "title": "The list of boards tells the title and the moderators of each board", "statement": "From the list of boards that the service writes, the title and the moderators of each board can be told.", "quantifier": "all lists of boards, all zones", "why_tests_cant": "two-run property over all pairs of lists", "anchors": ["serverlet/route_boards.go:getBoards", "pttbbs/board.go:BoardHeader"]}
{"id": "C106", "title": "A time in an answer denotes the instant that is stored", "statement": "A time the service writes, read by RFC 3339, denotes the stored instant, and every stored time can be written.", "quantifier": "all 32-bit times, all zones of less than a day", "why_tests_cant": "four billion times in all zones, with leap years, centuries and both signs of the offset", "anchors": ["serverlet/route_users.go:getUserInformation", "serverlet/route_boards.go:getBoards"]}
{"id": "C107", "title": "Status 200 means that the request was served", "statement": "An answer with status 200 carries what was asked for; a refused login or a method that is not supported has another status.", "quantifier": "all requests, user lists and board lists", "why_tests_cant": "all methods, paths, names and passwords", "anchors": ["serverlet/route_token.go:postToken", "serverlet/route_token.go:routeToken", "serverlet/route_boards.go:routeBoards", "serverlet/route_users.go:getUserInformation"]}
{"id": "C108", "title": "Every call closes the files it opened", "statement": "When a call of the library returns, the files that are open are those that were open before; a mapped file stays open only if it was handed out, and only until it is closed.", "quantifier": "all file-opening calls, all outcomes of all system calls, all states before", "why_tests_cant": "a leak shows only after many calls, and only on error paths that a test cannot provoke", "anchors": ["pttbbs/board.go:OpenBoardHeaderFile", "pttbbs/passwd.go:OpenUserecFile", "pttbbs/userinfo.go:OpenUserInfoCache", "pttbbs/login_recent.go:OpenLoginRecentFile", "pttbbs/bad_logins.go:OpenBadLoginFile", "formosabbs/file.go:OpenFormosaBBSFileHeaderFile", "cache/mmap.go:CreateMmap", "cache/mmap.go:OpenMmap"]}
{"id": "C109", "title": "Every lock taken is given back", "statement": "When a call returns, it has unlocked every file that it locked.", "quantifier": "all file-opening calls, all outcomes of all system calls", "why_tests_cant": "needs a failing write or seek while the lock is held", "anchors": ["pttbbs/board.go:AppendBoardHeaderFileRecord", "pttbbs/board.go:RemoveBoardHeaderFileRecord", "pttbbs/file.go:UpdateFileHeaderFileRecord"]}
{"id": "C110", "title": "Writes happen under a lock, and only on files that are open", "statement": "A call writes and truncates only while it holds a lock, and never uses a file that is not open nor unlocks one that is not locked.", "quantifier": "all file-opening calls, all outcomes of all system calls", "why_tests_cant": "absence of an event in all executions", "anchors": ["pttbbs/draft.go:WriteUserDraft", "pttbbs/pttbss_append_new_line.go:AppendBoardArticleFile", "pttbbs/file.go:AppendFileHeaderFileRecord"]}
{"id": "C111", "title": "Success means that nothing failed", "statement": "When a call reports success, no lock, seek, read, conversion, write or truncation in it has failed.", "quantifier": "all file-opening calls, all outcomes of all system calls", "why_tests_cant": "every system call may fail, at every turn of every loop", "anchors": ["pttbbs/board.go:OpenBoardHeaderFile", "pttbbs/board.go:RemoveBoardHeaderFileRecord", "pttbbs/bad_logins.go:OpenBadLoginFile", "pttbbs/file.go:OpenFileHeaderFile"]}
{"id": "C112", "title": "Reading what cannot be read ends with an error", "statement": "If a path can be opened but every read of it fails, as for a directory, each list reader returns an error.", "quantifier": "all list readers, any number of turns", "why_tests_cant": "not returning is no test result", "anchors": ["pttbbs/board.go:OpenBoardHeaderFile", "pttbbs/passwd.go:OpenUserecFile", "pttbbs/file.go:OpenFileHeaderFile", "formosabbs/file.go:OpenFormosaBBSFileHeaderFile", "pttbbs/userinfo.go:OpenUserInfoCache"]}
{"id": "C113", "title": "Lines and terminators survive the conversion from Big5", "statement": "Cutting a byte string at line ends, blanks, digits or the terminator and converting the parts gives the parts of the converted string; no such byte is lost, swallowed by a broken character, or invented.", "quantifier": "all byte strings, all tables without characters below 0x40, all bytes", "why_tests_cant": "all byte strings, in particular those that end within a character", "anchors": ["big5.go:Big5ToUtf8", "cstr.go:CstrToBytes", "pttbbs/encoding.go:newStringFormBig5UAOCString"]}
{"id": "C114", "title": "Every call of the database returns", "statement": "Each call of bbs.DB ends with a value or an error, whatever names it is given and whatever the disk holds: it neither crashes the program nor runs forever.", "quantifier": "for every database, codec, disk and call (all fifteen kinds, with any names and contents)", "why_tests_cant": "A test tries some names on a tidy disk. The claim covers every name, every disk content and every call; the calls that break it do so only for the empty name, for a damaged favourites file, or for a directory where a list is expected.", "anchors": ["bbs.go:DB.ReadUserFavoriteRecords", "bbs.go:DB.ReadBoardArticleRecordsFile", "bbs.go:DB.ReadBoardTreasureRecordsFile", "bbs.go:DB.WriteUserDraft", "pttbbs/path.go:GetBoardArticleFilePath", "pttbbs/pttbbs.go:Connector.ReadUserFavoriteRecordsFile", "pttbbs/board.go:OpenBoardHeaderFile", "pttbbs/file.go:OpenFileHeaderFile"]}
{"id": "C115", "title": "A file of online records is read back record by record", "statement": "Reading a file of saved online records gives the records back in their order; a failing read is reported instead of being taken for data; an unfinished record at the end is the only one that is filled up.", "quantifier": "every list of storable online records, every unfinished tail, every sequence of read results", "why_tests_cant": "any number of records, any tail and any point at which a read fails", "anchors": ["pttbbs/userinfo.go:OpenUserInfoCache", "pttbbs/userinfo.go:UnmarshalUserInfo", "pttbbs/userinfo.go:UserInfoCache.MarshalBinary"]}
{"id": "C116", "title": "Calls made at the same time give the answers of some order, one at a time", "statement": "When several programs or goroutines call the database at the same time, every call takes effect at one moment between its start and its answer: the answers and the contents are those of some order of the calls made one at a time. No client waits for another.", "quantifier": "any number of clients, any lists of calls, every interleaving of their system calls, every size of the pieces that are read", "why_tests_cant": "the interleavings of any number of clients are unbounded, and the failing ones need a step of one client between two particular system calls of another", "anchors": ["bbs.go:DB", "pttbbs/pttbbs.go:Connector.ReadBoardArticleFile", "pttbbs/draft.go:Connector.ReadUserDraft", "pttbbs/draft.go:Connector.WriteUserDraft", "pttbbs/pttbbs_write_article_connector.go:Connector.CreateBoardArticleFilename", "pttbbs/pttbbs_write_article_connector.go:Connector.WriteBoardArticleFile", "pttbbs/pttbss_append_new_line.go:Connector.AppendBoardArticleFile", "pttbbs/file.go:OpenFileHeaderFile", "pttbbs/file.go:AppendFileHeaderFileRecord", "pttbbs/board.go:OpenBoardHeaderFile", "pttbbs/board.go:AppendBoardHeaderFileRecord", "filelock/filelock.go:Lock"]}
{"id": "C117", "title": "Clients whose calls do not race cannot tell that a call is several system calls", "statement": "Take programs that decide what to call next from the answers they get. If, when every call is imagined as one step, no two calls that disturb each other are ever outstanding at the same time, then every real execution, with the system calls of the programs interleaved in any way, is one of these imagined ones: the same calls and answers in the same order, the programs equally far, the same contents; and a program that is left alone gets its answer.", "quantifier": "any number of programs, each any tree of calls and answers; every interleaving of their system calls and every size of the pieces that are read; every disk and codec", "why_tests_cant": "the programs are arbitrary and react to what they read; a test sees single interleavings of single programs", "anchors": ["bbs.go:DB", "pttbbs/pttbbs.go:Connector.ReadBoardArticleFile", "pttbbs/draft.go:Connector.WriteUserDraft", "pttbbs/pttbbs_write_article_connector.go:Connector.CreateBoardArticleFilename", "pttbbs/pttbbs_write_article_connector.go:Connector.WriteBoardArticleFile", "pttbbs/pttbss_append_new_line.go:Connector.AppendBoardArticleFile", "pttbbs/file.go:OpenFileHeaderFile", "pttbbs/file.go:AppendFileHeaderFileRecord"]}
{"id": "C118", "title": "Posting, reading and commenting at the same time: nothing is lost, doubled or seen unfinished", "statement": "Any number of clients post articles, read the articles of boards and comment on them at the same time. Nobody reads a part of an article; a comment that was accepted stays; once no call is under way, the lists have grown by exactly one record for every finished post, whose file is new, has a name of its own and starts with its text; what was there before is kept.", "quantifier": "any number of posters and guests, any texts, boards, times and random numbers, every interleaving of their system calls, every tidy disk", "why_tests_cant": "the number of clients and the interleavings are unbounded; the loss needs a comment between two particular calls of the poster", "anchors": ["bbs.go:DB.CreateArticleRecord", "bbs.go:DB.AddArticleRecordFileRecord", "bbs.go:DB.WriteBoardArticleFile", "bbs.go:DB.ReadBoardArticleFile", "bbs.go:DB.ReadBoardArticleRecordsFile", "cmd/bbstool/articles.go:addBoardArticle", "pttbbs/pttbbs_write_article_connector.go:Connector.CreateBoardArticleFilename", "pttbbs/pttbbs_write_article_connector.go:Connector.WriteBoardArticleFile", "pttbbs/pttbss_append_new_line.go:Connector.AppendBoardArticleFile"]}
{"id": "C119", "title": "A search made while others post and comment finds what was there before and nothing that is not there afterwards", "statement": "A client searches all boards for the articles or the comments of a user, one call after the other, while any number of other clients post articles, comment, add boards and read. Its result contains everything the search would have found when it began, and is contained in what the search finds once no call is under way, in the same order; the search for articles never fails.", "quantifier": "any number of clients keeping to the rules of C118, every interleaving of their system calls, every moment at which the search begins, every user, every tidy disk", "why_tests_cant": "the interleavings and the number of boards, articles and clients are unbounded; a search is many calls, each of which may find another state", "anchors": ["bbs.go:DB.GetUserArticleRecordFile", "bbs.go:DB.GetUserCommentRecordFile", "bbs.go:DB.GetBoardUserCommentRecord", "bbs.go:DB.GetBoardArticleCommentRecords", "bbs.go:DB.ReadBoardRecords", "bbs.go:DB.ReadBoardArticleRecordsFile", "bbs.go:DB.ReadBoardArticleFile", "pttbbs/pttbss_append_new_line.go:Connector.AppendBoardArticleFile"]}
{"id": "C120", "title": "A call made of system calls, undisturbed, is the call of the database on every disk", "statement": "If nobody else uses the disk, every call of the database, carried out system call by system call, ends after finitely many of them with the answer and the disk that the call as a whole gives, however the reads are divided; a call that does not return as a whole never returns and changes nothing.", "quantifier": "all calls and arguments, all disks (also with directories in place of files, files in place of directories, missing parents), all sizes of reads", "why_tests_cant": "disks and arguments are unbounded and the error branches of every call are reached only on odd disks; not returning cannot be observed", "anchors": ["bbs.go:DB.ReadUserRecords", "bbs.go:DB.ReadBoardRecords", "bbs.go:DB.ReadBoardArticleRecordsFile", "bbs.go:DB.ReadBoardArticleFile", "bbs.go:DB.WriteBoardArticleFile", "bbs.go:DB.GetUserDrafts", "pttbbs/file.go:OpenFileHeaderFile", "pttbbs/pttbbs_write_article_connector.go:Connector.CreateBoardArticleFilename", "pttbbs/pttbss_append_new_line.go:Connector.AppendBoardArticleFile"]}
{"id": "C121", "title": "What the disk holds if the machine stops in the middle of a call", "statement": "If the machine stops during a call of the database, after any system call or any byte of a write, the disk is as before, or as after the call, or only the file the call writes to differs: it holds a beginning of what is written, after the old content (records, lines), over it (articles) or instead of it (drafts). Each of these disks can be left. Reading, claiming an article's name and deleting a draft have happened or not; saving a draft again can lose both texts.", "quantifier": "all calls, arguments and disks, every system call and every byte at which the machine stops", "why_tests_cant": "the moments at which a machine stops cannot be chosen in a test, and disks and contents are unbounded", "anchors": ["bbs.go:DB.WriteBoardArticleFile", "bbs.go:DB.AddArticleRecordFileRecord", "pttbbs/draft.go:Connector.WriteUserDraft", "pttbbs/pttbbs_write_article_connector.go:Connector.WriteBoardArticleFile", "pttbbs/pttbss_append_new_line.go:Connector.AppendBoardArticleFile", "pttbbs/pttbbs_write_article_connector.go:Connector.CreateBoardArticleFilename"]}
{"id": "C122", "title": "The machine stops while clients post, read and comment: what was finished is there", "statement": "Any number of clients post articles (file, text, record), read and comment, and the machine stops at any moment, with any number of writes begun and cut at any byte. Afterwards every list begins with its old records and one record for each post that was through; the file of each of these is new, has a name of its own and starts with its whole text; comments that were accepted and articles that were there are kept; behind these records the list has at most as many as writes had begun. If no write is cut, other clients can go on under the same conditions, however often this happens.", "quantifier": "any number of posters and guests, any texts, boards, times and random numbers, every interleaving of their system calls, every moment and every set of cut writes, every tidy disk", "why_tests_cant": "the moments at which a machine stops and the interleavings cannot be chosen in a test, and there are unboundedly many", "anchors": ["bbs.go:DB.CreateArticleRecord", "bbs.go:DB.AddArticleRecordFileRecord", "bbs.go:DB.WriteBoardArticleFile", "bbs.go:DB.AppendBoardArticleFile", "bbs.go:DB.ReadBoardArticleRecordsFile", "cmd/bbstool/articles.go:addBoardArticle", "pttbbs/pttbbs_write_article_connector.go:Connector.CreateBoardArticleFilename", "pttbbs/pttbbs_write_article_connector.go:Connector.WriteBoardArticleFile", "pttbbs/pttbss_append_new_line.go:Connector.AppendBoardArticleFile"]}
{"id": "C123", "title": "The tool prints the lists it is asked for, asks for the first missing argument, and otherwise names what is wrong", "statement": "For every command line, directory and content of the disk: show_board_list prints one line per board with its title, show_user_list one line per user that has an id, show_user_article_list one line per article of the user, show_board_article the text of the article, each in the order of the list; a list that cannot be read gives one complaint. A subcommand that lacks arguments asks for the first one it lacks in a fixed order. A directory that cannot be opened and a subcommand that does not exist are named. In none of these error cases is anything on the disk changed.", "quantifier": "all command lines, options, working directories, disk contents and codecs", "why_tests_cant": "The tool has no tests; its output depends on the whole disk and on every combination of given and missing arguments.", "anchors": ["cmd/bbstool/main.go:main", "cmd/bbstool/main.go:showboardlist", "cmd/bbstool/main.go:showuserlist", "cmd/bbstool/main.go:showuserarticlelist", "cmd/bbstool/articles.go:showBoardArticle", "cmd/bbstool/articles.go:addBoardArticle"]}
{"id": "C124", "title": "Removing a draft leaves it to those who have it open", "statement": "On a file system that knows open files by number: clients without races (C117) get the same answers, and the names show the same, as when open files are known by their places, so every call takes effect at one moment. The same holds for any clients as long as nobody removes what another one has open, and for one client alone. A file that has lost its name and is only read keeps its content whatever anybody does, and its readers get all the rest of it, also when a draft is saved again under the same name.", "quantifier": "all disks, numbers of clients, scripts that may depend on the answers, interleavings of system calls and read sizes", "why_tests_cant": "A test runs one interleaving; the removal has to come between the opening of a file and its reading or writing.", "anchors": ["pttbbs/draft.go:DeleteUserDraft", "pttbbs/draft.go:WriteUserDraft", "pttbbs/draft.go:ReadUserDraft", "bbs.go:DeleteUserDraft", "bbs.go:WriteUserDraft"]}
{"id": "C125", "title": "Every call ends, whatever the other clients do", "statement": "Every call gets its answer after a number of steps of its own client that depends on the call and on the disk at the start, not on what other clients do meanwhile. (Refuted: a reader of a list can be kept reading by a client that adds records. What holds: calls that write or remove take at most four steps; calls that read are bounded by the largest size that the file ever has; creating an article takes one step per name that is taken; and finitely many clients that all get to move again and again come to the ends of their scripts.)", "quantifier": "all disks, calls, numbers of other clients, scripts that may depend on the answers, interleavings of system calls and read sizes, also without end", "why_tests_cant": "A test runs finitely many schedules for finitely many steps; that every fair schedule ends is a statement about infinite ones.", "anchors": ["pttbbs/file.go:OpenFileHeaderFile", "pttbbs/board.go:OpenBoardHeaderFile", "pttbbs/pttbbs_write_article_connector.go:CreateBoardArticleFilename", "pttbbs/draft.go:WriteUserDraft", "pttbbs/pttbbs.go:ReadBoardArticleFile"]}
{"id": "C126", "title": "A list that cannot be opened is not taken for an empty one", "statement": "Reading the article list of a board answers with an empty list only if there is no list file or the list file is empty; any other failure to open it is reported as an error.", "quantifier": "every store, every name of the store's directory, every board name, every state of the file system", "why_tests_cant": "the test for a missing file searches the text of the error, which contains the path; whether it goes wrong depends on the names of directories a test does not use", "anchors": ["bbs.go:ReadBoardArticleRecordsFile", "pttbbs/file.go:OpenFileHeaderFile"]}
{"id": "C127", "title": "A call that fails for want of space has changed nothing", "statement": "When the disk is full, a call of the database answers with an error and has changed nothing; a call that answers without an error has done everything; and when there is space again, what is added is listed.", "quantifier": "every store, every call, every amount of room at each system call, every list of records added later", "why_tests_cant": "a test would need a disk that fills up at a chosen byte of a chosen system call", "anchors": ["pttbbs/file.go:AppendFileHeaderFileRecord", "pttbbs/board.go:AppendBoardHeaderFileRecord", "pttbbs/draft.go:WriteUserDraft", "pttbbs/pttbbs_write_article_connector.go:WriteBoardArticleFile", "pttbbs/pttbbs_write_article_connector.go:CreateBoardArticleFilename", "pttbbs/pttbss_append_new_line.go:AppendBoardArticleFile"]}
{"id": "C128", "title": "A token says who has logged in, and nobody else", "statement": "A token that is issued is a signed JWT in its one spelling; its claims name the user who logged in, and no two users get the same claims; it reaches the client and comes back unchanged.", "quantifier": "all user lists, all logins, all names, all signing functions, all header schemes", "why_tests_cant": "all pairs of names, including names of bytes that are no text", "anchors": ["serverlet/route_token.go:newAccessTokenWithUsername", "serverlet/route_token.go:postToken", "serverlet/route_token.go:getTokenFromRequest"]}
{"id": "C129", "title": "What was answered survives a power failure", "statement": "When a call has been answered, its effect is on the disk even if the power fails afterwards; in particular a post that is in a list has its text. (Refuted: nothing is ever synced. What holds: lists and articles that were stored keep what they had, with a beginning of what was added; the power touches one file if each call is stored before the next.)", "quantifier": "all disks, all clients that post, read and comment, all schedules, all sequences of calls, all moments and all orders in which the operating system stores files", "why_tests_cant": "a test cannot choose what the operating system has stored when the power fails, and there are infinitely many mixtures of moments", "anchors": ["pttbbs/file.go:AppendFileHeaderFileRecord", "pttbbs/board.go:AppendBoardHeaderFileRecord", "pttbbs/pttbbs_write_article_connector.go:WriteBoardArticleFile", "pttbbs/pttbss_append_new_line.go:AppendBoardArticleFile", "pttbbs/draft.go:WriteUserDraft"]}
{"id": "C130", "title": "A number read from the cache beside a writer is one that stood there", "statement": "While another process changes the shared memory, the version and the amounts of money that a reader gets are numbers that stood at their place at some time of the reading; an amount that is never negative is not read as negative; if nobody writes they are the numbers of the cache.", "quantifier": "all histories of the shared memory during the reading, all orders and times of the loads, all valid layouts and users", "why_tests_cant": "It needs a write by another process between two loads, and which loads there are depends on the compiler.", "anchors": ["pttbbs/cache.go:Version", "pttbbs/cache.go:Money"]}
{"id": "C131", "title": "What has been answered is found at once, though calls are always under way", "statement": "While clients post, comment, keep drafts and read, with calls under way all the time: every board and article whose addition has been answered, or that anyone has seen in a list, is in every list that is asked for afterwards and is found by every search that begins afterwards; a comment whose addition has been answered is in the article for everybody who opens it afterwards; lists and articles read later extend what was read earlier; and a client reads back the draft it wrote last.", "quantifier": "all databases in good order, all clients that keep to the rules of C118, all interleavings of their system calls, all moments of the history", "why_tests_cant": "There are infinitely many clients, scripts and interleavings, and no moment at which nothing is under way at which a test could look.", "anchors": ["bbs.go:DB.ReadBoardRecords", "bbs.go:DB.ReadBoardArticleRecordsFile", "bbs.go:DB.ReadBoardArticleFile", "bbs.go:DB.AppendBoardArticleFile", "bbs.go:DB.AddArticleRecordFileRecord", "bbs.go:DB.AddBoardRecord", "bbs.go:DB.GetUserArticleRecordFile", "bbs.go:DB.WriteUserDraft", "bbs.go:DB.GetUserDrafts"]}
{"id": "C132", "title": "Boards removed at the same time", "statement": "Several removals from the board list that run at the same time, with boards being added meanwhile, remove exactly the boards they name: every other board stays, a removed board does not come back, no blank board appears, and whoever reads the list meanwhile sees only whole entries that belong to it.", "quantifier": "all board lists, any number of removals of any indices and of additions, all interleavings of their system calls, all moments", "why_tests_cant": "A test runs removals one after another, or a few interleavings by chance; the claim is about all of them, at every moment.", "anchors": ["bbs.go:DB.ReadBoardRecords", "pttbbs/board.go:RemoveBoardHeaderFileRecord", "pttbbs/board.go:AppendBoardHeaderFileRecord", "filelock/filelock.go:Lock"]}
{"id": "C133", "title": "What the tool posts arrives, and readers leave no trace", "statement": "Any number of clients post articles in the order of the command-line tool (file, record, text), others add to articles they find in lists, and others read anything. Readers change nothing: the disk, the other clients and what these are told are as without them, at every moment. Once no call that changes anything is under way, every list has its old records and exactly one record for each post whose client was told so, in some order; the file of each is new and has a name of its own, and has the whole text at its start once its client is through; what was there before is kept; a comment that was accepted stays if the article was there at first or its text had been written when the comment was made.", "quantifier": "any number of posters, commenters and readers, any texts, boards, times and random numbers, every interleaving of their system calls, every disk whose lists are made of whole records", "why_tests_cant": "the number of clients and the interleavings of their system calls are unbounded", "anchors": ["cmd/bbstool/articles.go:addBoardArticle", "bbs.go:DB.CreateArticleRecord", "bbs.go:DB.AddArticleRecordFileRecord", "bbs.go:DB.WriteBoardArticleFile", "bbs.go:DB.AppendBoardArticleFile", "bbs.go:DB.ReadBoardArticleRecordsFile", "pttbbs/pttbbs_write_article_connector.go:Connector.CreateBoardArticleFilename"]}
{"id": "C134", "title": "The machine stops while the tool posts: what was answered is there", "statement": "Clients post in the order of the command-line tool (file, record, text), comment and read, and the machine stops at any moment, with any number of writes begun and cut at any byte. Afterwards every list begins with its old records and one record for each post whose client was told of it; the file of each of these is there, is new and has a name of its own, and starts with the whole text if its client was through; behind these records the list has at most as many as writes had begun; articles that were there are kept, and so are accepted comments on finished articles. If no write is cut, other clients can go on under the same conditions, however often this happens.", "quantifier": "any number of posters, commenters and readers, any texts, boards, times and random numbers, every interleaving of their system calls, every moment and every set of cut writes, every disk whose lists are made of whole records", "why_tests_cant": "the moments at which a machine stops and the interleavings cannot be chosen in a test, and there are unboundedly many", "anchors": ["cmd/bbstool/articles.go:addBoardArticle", "bbs.go:DB.CreateArticleRecord", "bbs.go:DB.AddArticleRecordFileRecord", "bbs.go:DB.WriteBoardArticleFile", "bbs.go:DB.AppendBoardArticleFile", "pttbbs/file.go:AppendFileHeaderFileRecord"]}
{"id": "C135", "title": "In front of any driver the database uses only the driver's own paths and stops at the first failure", "statement": "Whatever driver is registered: every file name it is told is the path it gave in the call right before, by the method meant for it; after the first method that fails nothing more is asked and that failure is the answer of the call, so that a successful call has had no failing method; calls that read never ask for a method that writes or deletes. In front of the driver pttbbs the database behaves as the rest of the model says, and a record of another driver is refused without changing anything.", "quantifier": "every driver (any state, any record types, any behaviour of its methods, with or without each optional interface), every call of bbs.DB, every state", "why_tests_cant": "the interface is open: tests run the database in front of one driver or a mock, and cannot quantify over all drivers", "anchors": ["bbs.go:Connector", "bbs.go:DB.ReadUserRecords", "bbs.go:DB.ReadBoardRecords", "bbs.go:DB.ReadBoardArticleRecordsFile", "bbs.go:DB.AddBoardRecord", "bbs.go:DB.WriteBoardArticleFile", "bbs.go:DB.GetUserArticleRecordFile"]}
{"id": "C136", "title": "A driver without an optional interface does not crash the database", "statement": "If the methods of a driver do not panic, no call of bbs.DB panics, whichever of the optional interfaces the driver has; a call that needs a missing interface returns an error and has changed nothing.", "quantifier": "every driver whose methods do not panic, with any subset of the optional interfaces, every call, every state", "why_tests_cant": "there are 2^5 sets of interfaces and unboundedly many drivers; the tests' mock has all interfaces it is used with", "anchors": ["bbs.go:DB.NewBoardRecord", "bbs.go:DB.AddBoardRecord", "bbs.go:DB.CreateArticleRecord", "bbs.go:DB.AddArticleRecordFileRecord", "bbs.go:DB.WriteBoardArticleFile", "bbs.go:DB.AppendBoardArticleFile", "bbs.go:DB.GetUserDrafts", "bbs.go:DB.DeleteUserDraft", "bbs.go:DB.WriteUserDraft"]}
{"id": "C137", "title": "Searches for a user's articles and comments find what is there, with and without kept lists", "statement": "In front of any driver that reading does not change, a search for a user's articles or comments that succeeds returns exactly those the lists and articles of all boards but ALLPOST hold, in order; it fails if one of them cannot be read. A list the driver keeps for the user makes no difference to the answer.", "quantifier": "every driver that reading does not change, every user, every state", "why_tests_cant": "drivers, boards, articles and kept lists are unbounded; tests compare one fixed answer", "anchors": ["bbs.go:DB.GetUserArticleRecordFile", "bbs.go:DB.GetUserCommentRecordFile", "bbs.go:DB.GetBoardUserCommentRecord", "bbs.go:DB.GetBoardArticleCommentRecords", "bbs.go:UserArticleConnector", "bbs.go:UserCommentConnector"]}
{"id": "C138", "title": "Memory obtained from an open cache stays mapped until the program closes that cache", "statement": "From the moment a cache is opened until the program closes it, the bytes it handed out stay mapped to the same segment or file, whatever the garbage collector does; a cache that is dropped without Close is released by the runtime exactly once, and the release touches no other open cache.", "quantifier": "every process, every sequence of opens, closes, last uses, collections and operations of other processes, every segment and file", "why_tests_cant": "when the garbage collector runs is not under the control of a test, and interleavings are unbounded", "anchors": ["cache/systemvshm.go:CreateKey", "cache/systemvshm.go:SHM.Close", "cache/systemvshm.go:SHM.Bytes", "cache/mmap.go:openFile", "cache/mmap.go:Mmap.Close", "cache/mmap.go:Mmap.Bytes", "pttbbs/cache.go:Cache.Money"]}
{"id": "C139", "title": "A call whose system call is refused says so and changes nothing", "statement": "If the operating system refuses one of the system calls of a database call (permission denied, too many open files, input/output error and so on; a missing file is not a refusal), the call either still gives the right answer and effect or answers with that error and leaves the disk as it was.", "quantifier": "every disk, every call, every sequence of refused and granted system calls, every error text, every read size", "why_tests_cant": "which of the system calls is refused, when and how often cannot be enumerated, and most refusals cannot be provoked in a test environment", "anchors": ["pttbbs/draft.go:Connector.ReadUserDraft", "pttbbs/draft.go:Connector.WriteUserDraft", "pttbbs/pttbbs.go:Connector.ReadUserFavoriteRecordsFile", "pttbbs/file.go:OpenFileHeaderFile", "pttbbs/board.go:OpenBoardHeaderFile", "pttbbs/passwd.go:OpenUserecFile", "pttbbs/pttbbs_write_article_connector.go:Connector.CreateBoardArticleFilename", "bbs.go:DB.ReadBoardArticleRecordsFile"]}
{"id": "C140", "title": "A process with a limit on open files can make any number of calls", "statement": "There is a number of open files that suffices for every process, however many calls it makes one after the other, whatever system calls fail: no call is ever refused for want of a file descriptor.", "quantifier": "all sequences of calls of any length, all points at which the collector runs, all outcomes of all system calls, all files the program has open for itself", "why_tests_cant": "a leak of one descriptor per call shows only when the limit is reached, and the collector hides it for as long as it happens to run in time; no test makes calls until descriptors run out", "anchors": ["pttbbs/board.go:OpenBoardHeaderFile", "pttbbs/passwd.go:OpenUserecFile", "pttbbs/userinfo.go:OpenUserInfoCache", "pttbbs/login_recent.go:OpenLoginRecentFile", "pttbbs/bad_logins.go:OpenBadLoginFile", "formosabbs/file.go:OpenFormosaBBSFileHeaderFile", "pttbbs/board.go:RemoveBoardHeaderFileRecord", "pttbbs/pttbbs_write_article_connector.go:Connector.CreateBoardArticleFilename"]}
{"id": "C141", "title": "A decoded record belongs to its caller", "statement": "Once an online-user record has been decoded, none of its fields changes when the buffer it was decoded from is written to, when another record is changed, or when another field of the same record is added to.", "quantifier": "all buffers, all positions in them, all later contents of memory, all bytes stored or appended, files of any number of records", "why_tests_cant": "tests decode from a buffer nobody writes to afterwards and compare at once; memory that is shared shows only when somebody stores later", "anchors": ["pttbbs/userinfo.go:UnmarshalUserInfo", "pttbbs/userinfo.go:OpenUserInfoCache", "pttbbs/cache.go:MessageQueueCache"]}
{"id": "C142", "title": "The methods of a record tell what was set and what was stored", "statement": "When a record is read from its bytes, changed by any number of calls of its setters, saved and read again, its methods tell the last value given to each setter and, for what was not set, what the C structure in the bytes held.", "quantifier": "all bytes of a record, all sequences of setter calls, all codecs, all boards, articles and comments that a search finds", "why_tests_cant": "the tests read a few fields of a few records; a method that answers from a neighbouring field, or a setter that disturbs one, shows only on other contents and orders of calls", "anchors": ["pttbbs/file.go:FileHeader.Title", "pttbbs/file.go:FileHeader.SetTitle", "pttbbs/file.go:FileHeader.Money", "pttbbs/board.go:BoardHeader.SetBoardID", "pttbbs/board.go:BoardHeader.ClassID", "pttbbs/passwd.go:Userec.LastLogin", "user_article_record.go:userArticleRecord.ArticleID", "user_comment_record.go:userCommentRecord.IP"]}
{"id": "C143", "title": "A name that is too long for the system is refused and nothing changes", "statement": "When the system refuses paths of 4096 bytes or more and components of more than 255 (ENAMETOOLONG), a call with such a name answers with that error and changes nothing; a call with shorter names answers as it would without limits.", "quantifier": "all calls of the database, all names, all contents of the disk, all numbers of clients and orders of their system calls", "why_tests_cant": "the tests use short names; that a name of 256 bytes is read as an empty draft, or makes the search for a new article name endless, depends on limits no test reaches", "anchors": ["pttbbs/draft.go:Connector.ReadUserDraft", "pttbbs/pttbbs_write_article_connector.go:Connector.CreateBoardArticleFilename", "pttbbs/pttbbs.go:Connector.ReadUserFavoriteRecordsFile", "pttbbs/path.go:GetUserDraftPath", "pttbbs/path.go:GetBoardArticleFilePath"]}
{"id": "C144", "title": "No cache is returned with an error", "statement": "When opening a cache fails, the value returned with the error is nil, so that a caller who tests it before using or closing it does not crash; when it succeeds the value can be read.", "quantifier": "all connection strings, all states of shared memory and of the files, Unix and Windows", "why_tests_cant": "the tests open what exists; that a failed open returns an interface holding a nil pointer, which is not nil, shows only when the value is tested after a failure of the system", "anchors": ["cache/cache.go:NewCache", "cache/mmap.go:OpenMmap", "cache/systemvshm.go:OpenKey", "cache/mmap_windows.go:openMmap", "cache/systemvshm_windows.go:shmget", "pttbbs/cache.go:NewCache"]}
{"id": "C145", "title": "A list holds exactly what was answered with success, though system calls are refused", "statement": "Several clients use the database at the same time and the system refuses any of their system calls. A file that the other calls do not write to then holds what it held, followed by exactly what the adding calls answered with success added: nothing of a call answered with an error, nothing twice, every record whole, and the additions of each client in its order.", "quantifier": "any number of clients, any calls, every interleaving of their system calls, every choice of refused system calls and of error texts, every disk", "why_tests_cant": "the interleavings together with the refusals cannot be enumerated, and a lost or half-done addition shows only for particular ones", "anchors": ["pttbbs/file.go:AppendFileHeaderFileRecord", "pttbbs/board.go:AppendBoardHeaderFileRecord", "pttbbs/pttbss_append_new_line.go:Connector.AppendBoardArticleFile", "bbs.go:DB.AddArticleRecordFileRecord", "bbs.go:DB.AddBoardRecord", "bbs.go:DB.AppendBoardArticleFile"]}
{"id": "C146", "title": "The disk gets full while several clients add: what was answered with success is listed", "statement": "Several clients add records to the list of a board, or texts to an article, while the disk gets full and has room again at any moments. Whatever was answered with success is in the file as a whole and is read back from the list, and what was there before is read as before.", "quantifier": "any number of clients, any calls, every interleaving of their system calls, every amount of room at each of them, every disk", "why_tests_cant": "a test would need a disk that fills up at a chosen byte of a chosen system call of one client while another one is between two of its own", "anchors": ["pttbbs/file.go:AppendFileHeaderFileRecord", "pttbbs/board.go:AppendBoardHeaderFileRecord", "pttbbs/pttbss_append_new_line.go:Connector.AppendBoardArticleFile", "bbs.go:DB.AddArticleRecordFileRecord", "bbs.go:DB.AddBoardRecord"]}
{"id": "C147", "title": "What one account has made, other accounts of the machine do not change", "statement": "A file or a segment that the program makes cannot be written to by other accounts of the machine; once a file is there, no calls of clients under accounts that may write neither to it nor to its directory change or remove it, and such clients make no file in a directory they may not write to. What is added to lists by clients under any accounts is exactly what was answered with success; with one account for all, accounts make no difference.", "quantifier": "all accounts, masks, owners and modes, all clients, calls and interleavings of system calls", "why_tests_cant": "tests run under one account with one mask; the orders of system calls and the masks cannot be enumerated", "anchors": ["pttbbs/file.go:AppendFileHeaderFileRecord", "pttbbs/board.go:AppendBoardHeaderFileRecord", "pttbbs/draft.go:Connector.WriteUserDraft", "pttbbs/pttbbs_write_article_connector.go:Connector.CreateBoardArticleFilename", "cache/mmap.go:CreateMmap", "cache/systemvshm.go:CreateKey"]}
{"id": "C148", "title": "A draft is read by its owner only", "statement": "A draft that was not there and is saved under one account of the machine cannot be read by another account.", "quantifier": "all accounts, masks, users, drafts, texts and disks", "why_tests_cant": "tests run under one account with one mask", "anchors": ["pttbbs/draft.go:Connector.WriteUserDraft", "pttbbs/draft.go:Connector.ReadUserDraft"]}
{"id": "C149", "title": "Databases opened and used by several goroutines keep whole homes", "statement": "While goroutines register drivers, open databases and ask for paths at the same time, every home directory that is used is one that some Open was given (or the one that was there before), what remains when all have returned is such a home too, one call uses one home, and the driver map never makes the runtime end the program.", "quantifier": "all memories, data source names, numbers of goroutines, programs of register/open/use and interleavings of their word-sized loads and stores", "why_tests_cant": "the damage needs a load between two stores of one string; a test runs a handful of schedules and sees none of them", "anchors": ["bbs.go:Register", "bbs.go:Open", "pttbbs/pttbbs.go:Connector.Open", "pttbbs/pttbbs.go:Connector.GetUserRecordsPath", "pttbbs/pttbbs.go:Connector.GetBoardRecordsPath"]}
{"id": "C150", "title": "Lines of the log are the program's", "statement": "In the log, the lines that begin with a time stamp are the entries the program made: neither the path of a request nor a name given to a call can add one, and an entry is one line.", "quantifier": "all sequences of requests and of calls, all home directories, names and times", "why_tests_cant": "tests do not look at the log, and try no names with newlines in them", "anchors": ["serverlet/route_users.go:getUsers", "serverlet/route_token.go:getTokenFromRequest", "bbs.go:DB.ReadUserFavoriteRecords", "bbs.go:DB.ReadBoardArticleFile", "bbs.go:DB.GetUserDrafts"]}
{"id": "C151", "title": "Searching comments tells nobody the articles", "statement": "Looking for a user's comments gives the comments and leaves no text of an article in the log.", "quantifier": "all disks, boards, articles and users", "why_tests_cant": "tests compare the answer; what is printed on the way is not looked at, and it depends on the number of comments in each article", "anchors": ["bbs.go:DB.GetBoardArticleCommentRecords", "bbs.go:DB.GetBoardUserCommentRecord", "bbs.go:DB.GetUserCommentRecordFile"]}
{"id": "C152", "title": "The length of a segment is read right on every system", "statement": "On every system for which the package declares the kernel's structure (64-bit Linux, 32-bit x86 Linux, Darwin), opening a segment without giving its length takes the length that the kernel reports, and the kernel writes nothing beyond the buffer.", "quantifier": "all three systems, all memories, buffer addresses, segments and lengths that an int can hold", "why_tests_cant": "Tests run on the one system of the tester; the structure is declared with fixed widths for all kinds of Linux.", "anchors": ["cache/systemvshm.go:56-65", "cache/systemvshm_linux.go:11-33", "cache/systemvshm_darwin.go:5-23"]}
{"id": "C153", "title": "Nobody can foretell the file name of a new article", "statement": "Whatever file name somebody guesses beforehand, a new article may get another one, as long as the random generator can be in states with different numbers.", "quantifier": "all disks, boards, arguments, clocks, generators, states of the generator and guesses", "why_tests_cant": "Tests make one article and look at the form of its name; they do not compare runs with different states of the generator.", "anchors": ["pttbbs/pttbbs_write_article_connector.go:Connector.NewArticleRecordWithMap", "pttbbs/pttbbs_write_article_connector.go:Connector.CreateBoardArticleFilename"]}
{"id": "C154", "title": "However processes name one home directory, they share one database and stay inside it", "statement": "Several processes whose BBSHOME settings are different names of one directory (absolute, relative to the working directory, through symbolic links) get the same answers and leave the same disk as if all used one name, and change nothing outside of that directory.", "quantifier": "all disks with symbolic links, all names of the directory, all calls whose arguments do not go up, all interleavings", "why_tests_cant": "Tests open one home directory by one relative name, with one process and without links.", "anchors": ["pttbbs/pttbbs.go:Connector.Open", "pttbbs/pttbbs_write_article_connector.go:Connector.WriteBoardArticleFile", "pttbbs/path.go:GetBoardArticleFilePath"]}
{"id": "C155", "title": "After the power has failed, a list of articles shows only records that somebody added", "statement": "When the power fails during or after calls that add to a list of articles, and the operating system has stored the parts of the file and its length in any order, the old records are listed as they were, and every further record that is listed is one that was added.", "quantifier": "all disks, all sequences of calls, all moments of failure, all orders in which parts of files are stored", "why_tests_cant": "Tests cannot cut the power, and pages are normally stored in order and long after the test has ended.", "anchors": ["pttbbs/file.go:AppendFileHeaderFileRecord", "pttbbs/pttbbs_write_article_connector.go:Connector.AddArticleRecordFileRecord", "pttbbs/pttbss_append_new_line.go:Connector.AppendBoardArticleFile"]}
{"id": "C156", "title": "A board added with the tool is listed by the service from its next start", "statement": "After add_board of the tool has run without complaint any number of times, a service started afterwards on the same home lists the boards it listed before and then the new ones in order, each with the id and title given; its users are the same; a service that runs answers as before.", "quantifier": "all disks, working directories, options and argument lists of the tool, all numbers of runs, all requests", "why_tests_cant": "Tool and service are separate programs with different ways to name the home; no test runs both, and a list that ends within a record is in no test data.", "anchors": ["cmd/bbstool/main.go:addboard", "serverlet/main.go:loadBoardFile", "pttbbs/pttbbs_write_board_connector.go:Connector.AddBoardRecordFileRecord"]}
{"id": "C157", "title": "An article that was just added is found under its author, once", "statement": "After a record has been added to the list of articles of a board, the search for the articles of its author returns what it returned before with exactly that article inserted at the end of the articles of its board; searches for other users return what they returned.", "quantifier": "all disks, board lists, boards, records, users and histories of calls", "why_tests_cant": "Tests search one prepared directory; they never search before and after a post, and the list of boards in the test data has no board twice.", "anchors": ["bbs.go:DB.GetUserArticleRecordFile", "bbs.go:DB.AddArticleRecordFileRecord", "pttbbs/pttbbs_write_article_connector.go:Connector.AddArticleRecordFileRecord"]}
{"id": "C158", "title": "A comment that was just added is the last comment of its article", "statement": "After a comment line has been appended to an article, the comments of the article are those from before, with their numbers, followed by this one with the next number, its owner, time and text.", "quantifier": "all disks, articles, comment lines, and any number of comments one after the other", "why_tests_cant": "Tests read the comments of prepared articles, all of which end with a newline; none appends and reads again.", "anchors": ["bbs.go:DB.AppendBoardArticleFile", "bbs.go:DB.GetBoardArticleCommentRecords", "user_comment_record.go:parseUserComment"]}
{"id": "C159", "title": "A board that was removed is gone, and its name can be used anew", "statement": "After the record of a board has been removed from the list of boards, the other boards are listed and searched as before, nothing of the removed board is found, and a board added later under the same name starts without articles.", "quantifier": "all disks, board lists, positions, records added later, and users searched for", "why_tests_cant": "The test for removal appends a record and removes it again, comparing the bytes of the list; it never looks at articles and adds no board of the same name.", "anchors": ["bbs.go:DB.RemoveBoardRecord", "pttbbs/board.go:RemoveBoardHeaderFileRecord", "bbs.go:DB.AddBoardRecord", "bbs.go:DB.GetUserArticleRecordFile", "bbs.go:DB.GetUserCommentRecordFile"]}
{"id": "C160", "title": "Whatever is on the disk is in a directory that is there", "statement": "If every file and directory of the disk is in a directory that is there, this stays so whatever calls clients make, in whatever order their system calls happen, and whichever of them the system refuses.", "quantifier": "all disks, clients, calls, interleavings of system calls and refusals", "why_tests_cant": "os.Remove takes directories too, and drafts and articles are made through paths built from user names; no finite set of names and orders covers what may be removed under another's feet", "anchors": ["pttbbs/draft.go:Connector.DeleteUserDraft", "pttbbs/draft.go:Connector.WriteUserDraft", "pttbbs/pttbbs_write_article_connector.go:Connector.CreateBoardArticleFilename", "pttbbs/file.go:AppendFileHeaderFileRecord"]}
{"id": "C161", "title": "What an account may not read, no call tells it", "statement": "Clients under accounts that may not read a file, or may not search its directory, get the same answers in the same order whatever the content of the file is, and what they store elsewhere is the same too: no call tells or copies anything of the content.", "quantifier": "all disks, files, pairs of contents, owners, groups, modes and masks, clients, calls and interleavings of system calls", "why_tests_cant": "the claim compares two runs for every pair of contents and every schedule; a test sees one content and one run", "anchors": ["pttbbs/draft.go:Connector.ReadUserDraft", "pttbbs/passwd.go:OpenUserecFile", "pttbbs/board.go:OpenBoardHeaderFile", "pttbbs/file.go:OpenFileHeaderFile", "pttbbs/pttbss_append_new_line.go:Connector.AppendBoardArticleFile"]}
{"id": "C162", "title": "Whether a call failed can be read in the log", "statement": "Whenever a call of the database fails, the reason is in the log, and whenever a reason is in the log, the call that wrote it failed with it.", "quantifier": "all databases, disks, calls and errors", "why_tests_cant": "no test looks at the log, and each call has its own places where errors are written or are not; the claim is about every disk on which any of them fails", "anchors": ["bbs.go:DB.ReadUserRecords", "bbs.go:DB.ReadBoardArticleRecordsFile", "bbs.go:DB.AddArticleRecordFileRecord", "bbs.go:DB.DeleteUserDraft", "bbs.go:DB.WriteUserDraft", "pttbbs/file.go:OpenFileHeaderFile"]}
{"id": "C163", "title": "The start of the service writes nothing of what is in the records", "statement": "What the service writes to its log until it listens is the same for two disks exactly if its two readings ended alike: with as many records, or with the same error. No byte of a record is written, although the lists of users and boards are printed.", "quantifier": "all codecs, working directories and pairs of disks", "why_tests_cant": "the claim compares the logs of two starts for every pair of password files; a test sees one file", "anchors": ["serverlet/main.go:main", "serverlet/main.go:loadPasswdsFile", "serverlet/main.go:loadBoardFile", "pttbbs/passwd.go:OpenUserecFile"]}
{"id": "C164", "title": "The log of a search tells why it failed and what it found", "statement": "For every disk and every user, a search for a user's articles or comments writes a reason to the log exactly when it fails with that reason. The lines about what was found name, in order, the board of each article found and the number of those found before it. A search that succeeds writes the path of the list of boards, then of each list of articles, and, when it looks for comments, after each list the paths of its articles.", "quantifier": "all homes, codecs, disks, users, lists of boards, lists and texts of articles, and reasons of failure", "why_tests_cant": "The statement ranges over every disk and every place where a search over arbitrarily many boards and articles can stop; tests capture a few logs and do not compare them with the outcome.", "anchors": ["bbs.go:DB.GetUserArticleRecordFile", "bbs.go:DB.GetUserCommentRecordFile", "bbs.go:DB.GetBoardUserCommentRecord", "bbs.go:DB.GetBoardArticleCommentRecords", "bbs.go:DB.ReadBoardArticleRecordsFile", "bbs.go:DB.ReadBoardRecords", "pttbbs/file.go:OpenFileHeaderFile", "pttbbs/board.go:OpenBoardHeaderFile"]}
{"id": "C165", "title": "The end of the log of a failed search tells where it stopped", "statement": "For every disk on which a search for a user's articles or comments fails, the log ends with the path of the file at which it stopped, followed by the reason once for each call that saw the failure, under that call's name. The file is the list of boards, the list of articles of the first board that cannot be searched, or the first article of that board whose text or comments cannot be read; everything before it has been searched.", "quantifier": "all homes, codecs, disks, users and reasons of failure", "why_tests_cant": "The place where a search stops is one of arbitrarily many boards and articles, and the statement names the last lines for each of them; tests would have to provoke every failure at every place.", "anchors": ["bbs.go:DB.GetUserArticleRecordFile", "bbs.go:DB.GetUserCommentRecordFile", "bbs.go:DB.GetBoardUserCommentRecord", "bbs.go:DB.GetBoardArticleCommentRecords", "bbs.go:DB.ReadBoardArticleFile", "bbs.go:DB.ReadBoardArticleRecordsFile", "bbs.go:DB.ReadBoardRecords"]}
{"id": "C166", "title": "A call made again because its answer was lost does nothing more", "statement": "A client that does not hear the answer to a call may make the call again: the disk has the same contents after the second as after the first. A call that failed fails in the same way again.", "quantifier": "all calls of the database, homes, codecs, disks, names and contents, and any number of repetitions", "why_tests_cant": "The statement compares every disk after one and after two runs of every call; tests make each call once, on a disk they prepared.", "anchors": ["bbs.go:DB.AddBoardRecord", "bbs.go:DB.CreateArticleRecord", "bbs.go:DB.AddArticleRecordFileRecord", "bbs.go:DB.WriteBoardArticleFile", "bbs.go:DB.AppendBoardArticleFile", "bbs.go:DB.DeleteUserDraft", "bbs.go:DB.WriteUserDraft", "bbs.go:DB.GetUserDrafts", "bbs.go:DB.ReadBoardArticleRecordsFile"]}
{"id": "C167", "title": "An article sent again keeps what was added to it", "statement": "When an article has been written and is written again with the same text, whatever other clients called in between, the disk has the same contents after the second write as before it.", "quantifier": "all homes, codecs, disks, boards, names, texts, and all lists of calls in between, by any names", "why_tests_cant": "The calls in between form histories of every length and may reach the same file by other names; tests write an article once.", "anchors": ["bbs.go:DB.WriteBoardArticleFile", "bbs.go:DB.AppendBoardArticleFile", "pttbbs/pttbbs_write_article_connector.go:Connector.WriteBoardArticleFile", "pttbbs/pttbss_append_new_line.go:Connector.AppendBoardArticleFile"]}
{"id": "C168", "title": "What was read is found again after others have added", "statement": "After any calls that neither write over a text nor delete, a text or a list that could be read can be read again, and what was read before is at its start: the text with the same bytes, the list with the same records in the same places. No call makes a directory.", "quantifier": "all homes, codecs, disks, reading calls (all but those of favourites), and all lists of calls in between, by any names", "why_tests_cant": "The calls in between form histories of every length, by names that may reach the same file in other ways; tests read once after one change.", "anchors": ["bbs.go:DB.ReadBoardArticleFile", "bbs.go:DB.ReadBoardArticleRecordsFile", "bbs.go:DB.ReadBoardRecords", "bbs.go:DB.ReadUserRecords", "bbs.go:DB.ReadBoardTreasureRecordsFile", "bbs.go:DB.GetUserDrafts", "bbs.go:DB.AppendBoardArticleFile", "bbs.go:DB.AddArticleRecordFileRecord", "bbs.go:DB.AddBoardRecord", "bbs.go:DB.CreateArticleRecord"]}
{"id": "C169", "title": "Favourites that were read are read again the same", "statement": "After any calls that neither write over a text nor delete, the favourites of a user are read with the same answer as before: the same entries with the same board names, and none for a user who had none. Bytes behind the end of a file of favourites change nothing.", "quantifier": "all homes, codecs, disks, users, files of favourites of any depth, and all lists of calls in between, by any names", "why_tests_cant": "The favourites form a tree of any depth that points into a list that others add to, and the calls in between form histories of every length; tests read one tree once.", "anchors": ["bbs.go:DB.ReadUserFavoriteRecords", "pttbbs/pttbbs.go:Connector.ReadUserFavoriteRecordsFile", "pttbbs/pttbbs.go:appendBoardID", "bbs.go:DB.AddBoardRecord"]}
{"id": "C170", "title": "What a search found it finds again after others have added", "statement": "After any calls that neither write over a text nor delete, a search for a user's articles or comments succeeds if it did before, and finds everything it found before, in the same order and with the same fields.", "quantifier": "all homes, codecs, disks, users, boards, and all lists of calls in between, by any names", "why_tests_cant": "The search goes through arbitrarily many boards, articles and lines, and the calls in between form histories of every length; tests search once, on a disk they prepared.", "anchors": ["bbs.go:DB.GetUserArticleRecordFile", "bbs.go:DB.GetUserCommentRecordFile", "bbs.go:DB.GetBoardUserCommentRecord", "bbs.go:DB.GetBoardArticleCommentRecords", "bbs.go:DB.AddBoardRecord"]}
