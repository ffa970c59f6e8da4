{
 "claims": [
  {
   "property": "C01",
   "status": "proved",
   "theorems": [
    "Verif.C01_cstr_prefix",
    "Verif.C01_cstr_unique"
   ],
   "note": "Prefix up to the first NUL, plus uniqueness of that characterisation."
  },
  {
   "property": "C02",
   "status": "proved",
   "theorems": [
    "Verif.C02_exact",
    "Verif.C02_article_record_roundtrip"
   ],
   "note": "Every persisted field of the 128-byte record."
  },
  {
   "property": "C03",
   "status": "partial",
   "theorems": [
    "Verif.C03_save_erases_extras",
    "Verif.C03_save_keeps_extras_refuted",
    "Verif.C03_save_keeps_extras_partial"
   ],
   "note": "The code violates the property: MarshalToByte never writes money/uid/vote limits/mode. Refuted; exact effect and the zero case proved."
  },
  {
   "property": "C04",
   "status": "proved",
   "theorems": [
    "Verif.C04_exact",
    "Verif.C04_board_record_roundtrip"
   ],
   "note": "All 28 fields."
  },
  {
   "property": "C05",
   "status": "partial",
   "theorems": [
    "Verif.C05_exact",
    "Verif.C05_user_record_roundtrip_partial",
    "Verif.C05_user_record_roundtrip_refuted",
    "Verif.C05_user_record_roundtrip_role_zero"
   ],
   "note": "Role is not written by MarshalBinary: full claim refuted, exact effect proved (all fields but role)."
  },
  {
   "property": "C06",
   "status": "partial",
   "theorems": [
    "Verif.C06_exact",
    "Verif.C06_online_record_roundtrip_partial",
    "Verif.C06_online_record_roundtrip_refuted"
   ],
   "note": "Overlapping offsets: full claim refuted, exact effect proved."
  },
  {
   "property": "C07",
   "status": "proved",
   "theorems": [
    "Verif.C07_fav_roundtrip",
    "Verif.C07_fav_roundtrip_plain",
    "Verif.C07_savable",
    "Verif.C07_fav_roundtrip_exact"
   ],
   "note": "Round trip proved for all trees that fit, and the exact law for all trees and titles."
  },
  {
   "property": "C08",
   "status": "partial",
   "theorems": [
    "Verif.C08_fav_load_returns_refuted",
    "Verif.C08_fav_load_panics_iff",
    "Verif.C08_fav_load_returns_partial",
    "Verif.C08_open_returns",
    "Verif.C08_memory",
    "Verif.C08_slice_panics_iff"
   ],
   "note": "OpenFavFile returns a tree or an error for every file (C08_open_returns), whatever memory lies behind its content (C08_memory). UnmarshalFavFile itself panics on a slice with capacity under two (C08_fav_load_returns_refuted), exactly then (C08_slice_panics_iff); the recursion budget is irrelevant (C08_fav_load_returns_partial)."
  },
  {
   "property": "C09",
   "status": "partial",
   "theorems": [
    "Verif.C09_fav_resave_stable",
    "Verif.C09_fav_total_counters",
    "Verif.C09_fav_kind_counters_refuted",
    "Verif.C09_fav_resave_exact",
    "Verif.C09_fav_resave_iff",
    "Verif.C09_fav_total_counters_all",
    "Verif.C09_fav_resave_refuted",
    "Verif.C09_fav_resave_big5_partial",
    "Verif.C09_fav_settles"
   ],
   "note": "Refuted for the codec the code uses: a title that ends in half a character changes on saving; it settles after two rounds. Exact law for all codecs, unchanged iff each title survives; partial for Big5 titles. Total counters proved for all codecs; per-kind counters refuted."
  },
  {
   "property": "C10",
   "status": "proved",
   "theorems": [
    "Verif.C10_article_exact",
    "Verif.C10_article_append_read",
    "Verif.C10_board_exact",
    "Verif.C10_board_append_read"
   ],
   "note": "Any number of appends to a missing, empty or aligned file, then read back, for article and board lists (quotients by what the record stores)."
  },
  {
   "property": "C11",
   "status": "partial",
   "theorems": [
    "Verif.C11_exact",
    "Verif.C11_update_in_range",
    "Verif.C11_update_outside_refuted",
    "Verif.C11_update_outside_partial",
    "Verif.C11_update_index_wraps"
   ],
   "note": "In-range updates change exactly one slot; the full claim is refuted (a distant index overwrites through wrap-around, and an index past the end extends the file); exact effect for an index past the end proved."
  },
  {
   "property": "C12",
   "status": "partial",
   "theorems": [
    "Verif.C12_remove_exact",
    "Verif.C12_remove_wrong_index_refuted",
    "Verif.C12_remove_wrong_index_partial",
    "Verif.C12_every_index",
    "Verif.C12_wraps_refuted"
   ],
   "note": "Any chunking, completion always possible, bounded number of calls; with an index at or beyond the end the file is zero-extended (refuted, exact effect proved)."
  },
  {
   "property": "C13",
   "status": "proved",
   "theorems": [
    "Verif.C13_crash_exact",
    "Verif.C13_crash_content",
    "Verif.C13_crash_loses_nothing"
   ],
   "note": "Byte-granular crash points."
  },
  {
   "property": "C14",
   "status": "partial",
   "theorems": [
    "Verif.C14_serialised_refuted",
    "Verif.C14_lost_window",
    "Verif.C14_serialised_partial",
    "Verif.C14_exact"
   ],
   "note": "A no-op lock: an append between end-of-file and truncation is lost (refuted); exact set of surviving records for every interleaving, and the serial result when the window is empty. C14_exact: the result is serial exactly if nothing was appended in that window."
  },
  {
   "property": "C15",
   "status": "proved",
   "theorems": [
    "Verif.C15_finishes",
    "Verif.C15_all_written",
    "Verif.C15_concurrent_appends",
    "Verif.C15_concurrent_appends_bytes"
   ],
   "note": "Any number of appenders, any schedule of their system calls."
  },
  {
   "property": "C16",
   "status": "partial",
   "theorems": [
    "Verif.C16_torn_exact",
    "Verif.C16_torn_count",
    "Verif.C16_torn_append_refuted",
    "Verif.C16_torn_append_partial"
   ],
   "note": "A torn append misaligns later records (refuted); the records before the tear stay readable. Exactly what is read after a tear within a record, whatever follows: C16_torn_exact, C16_torn_count."
  },
  {
   "property": "C17",
   "status": "partial",
   "theorems": [
    "Verif.C17_read_ends_refuted",
    "Verif.C17_read_ends_partial",
    "Verif.C17_read_regular_file"
   ],
   "note": "A read error is swallowed and the loop never ends (refuted for every fuel); termination and result for data/EOF sources."
  },
  {
   "property": "C18",
   "status": "proved",
   "theorems": [
    "Verif.C18_location",
    "Verif.C18_inside_home"
   ],
   "note": "Every per-board and per-user path resolves to the home directory followed by the documented components."
  },
  {
   "property": "C19",
   "status": "partial",
   "theorems": [
    "Verif.C19_exact",
    "Verif.C19_inside_refuted",
    "Verif.C19_any_target",
    "Verif.C19_inside_partial"
   ],
   "note": "Refuted: a name with '/' and '..' reaches any path at all (C19_any_target). Partial: names without '..' stay inside. C19_exact: an object stays inside for every home directory iff no step of its path leads above its start and it does not end there."
  },
  {
   "property": "C20",
   "status": "proved",
   "theorems": [
    "Verif.C20_exact",
    "Verif.C20_distinct_objects",
    "Verif.C20_reserved_names_collide"
   ],
   "note": "Violated for the names the library uses itself: C20_reserved_names_collide shows that the reserved names (.fav, logins.recent, buf.*, .DIR, .Name) collide by construction. Without them different objects are different files, and C20_exact decides it for all names that are single components: two objects are one file exactly if they mean the same object."
  },
  {
   "property": "C21",
   "status": "partial",
   "theorems": [
    "Verif.C21_paths_return_refuted",
    "Verif.C21_panics_iff",
    "Verif.C21_paths_return_partial"
   ],
   "note": "Refuted: an empty board or user id panics; C21_panics_iff is the exact law."
  },
  {
   "property": "C22",
   "status": "partial",
   "theorems": [
    "Verif.C22_exact",
    "Verif.C22_stays_valid",
    "Verif.C22_keeps_memory_refuted",
    "Verif.C22_effect",
    "Verif.C22_keeps_memory_partial"
   ],
   "note": "Refuted: append into the caller's spare capacity overwrites its memory; C22_effect is the exact law, C22_exact says exactly when the caller notices nothing, partial for slices with no spare capacity."
  },
  {
   "property": "C23",
   "status": "proved",
   "theorems": [
    "Verif.C23_drafts_refine_map",
    "Verif.C23_no_directory"
   ],
   "note": "Every history of write/delete/read of drafts refines a map keyed by (user, draft)."
  },
  {
   "property": "C24",
   "status": "proved",
   "theorems": [
    "Verif.C24_new_name_is_fresh",
    "Verif.C24_concurrent_names_differ"
   ],
   "note": "One creator, and any number of concurrent creators under any schedule."
  },
  {
   "property": "C25",
   "status": "partial",
   "theorems": [
    "Verif.C25_missing_directory_loops",
    "Verif.C25_create_returns_refuted",
    "Verif.C25_empty_board_panics",
    "Verif.C25_create_returns_partial",
    "Verif.C25_exact"
   ],
   "note": "Refuted: a missing board directory loops for ever (all fuels), an empty board id panics; partial: terminates within k+1 rounds when round k draws a free name."
  },
  {
   "property": "C26",
   "status": "partial",
   "theorems": [
    "Verif.C26_write_effect",
    "Verif.C26_write_replaces_refuted",
    "Verif.C26_write_replaces_partial",
    "Verif.C26_exact"
   ],
   "note": "Refuted: the file is not truncated; C26_write_effect is the exact law; it reads back as written iff the old content is not longer (C26_exact)."
  },
  {
   "property": "C27",
   "status": "proved",
   "theorems": [
    "Verif.C27_append",
    "Verif.C27_append_history"
   ],
   "note": "Exactly when the article exists; any history of appends."
  },
  {
   "property": "C28",
   "status": "partial",
   "theorems": [
    "Verif.C28_add_exact",
    "Verif.C28_add_effect",
    "Verif.C28_created_reads_back_partial",
    "Verif.C28_created_reads_back_refuted"
   ],
   "note": "Refuted: the zero modification time wraps to 2288912640 in the 32-bit field; C28_add_effect is the exact law; partial: every other field, and the time when it fits."
  },
  {
   "property": "C29",
   "status": "partial",
   "theorems": [
    "Verif.C29_recommend_accumulates_refuted",
    "Verif.C29_recommend_wraps",
    "Verif.C29_recommend_accumulates_partial",
    "Verif.C29_recommend_only_score",
    "Verif.C29_exact"
   ],
   "note": "int8 wrap-around refutes the full claim; exact mod-256 law; the true total is shown iff it fits in a signed byte (C29_exact)."
  },
  {
   "property": "C30",
   "status": "partial",
   "theorems": [
    "Verif.C30_independent_partial",
    "Verif.C30_second_open_takes_over",
    "Verif.C30_independent_refuted",
    "Verif.C30_exact"
   ],
   "note": "Refuted: all databases of a driver share one connector; C30_second_open_takes_over is the exact effect; partial: any history in which nobody opens over the same connector. C30_exact: the first home stays exactly if the second goes over another connector or names the same home."
  },
  {
   "property": "C31",
   "status": "proved",
   "theorems": [
    "Verif.C31_home"
   ],
   "note": "All strings."
  },
  {
   "property": "C32",
   "status": "partial",
   "theorems": [
    "Verif.C32_exact",
    "Verif.C32_article_list_partial",
    "Verif.C32_empty_name_refuted",
    "Verif.C32_empty_name_panics"
   ],
   "note": "Refuted: a board slot with an empty name panics the search (C32_empty_name_panics in general); partial: all other board lists and indexes, from the bytes on disk. The outcome in every case: C32_exact."
  },
  {
   "property": "C33",
   "status": "partial",
   "theorems": [
    "Verif.C33_exact",
    "Verif.C33_comment_list_partial",
    "Verif.C33_missing_article_refuted",
    "Verif.C33_bad_time"
   ],
   "note": "Refuted: a missing article file, a comment-like line with an impossible time, or a nameless board makes the whole list fail; partial: complete and sound list from the bytes on disk otherwise. When it succeeds and what it lists, exactly: C33_exact."
  },
  {
   "property": "C34",
   "status": "proved",
   "theorems": [
    "Verif.C34_floors",
    "Verif.C34_sample",
    "Verif.C34_returns"
   ],
   "note": "Every content, numbering and content of the comments, below 2^32 comments."
  },
  {
   "property": "C35",
   "status": "partial",
   "theorems": [
    "Verif.C35_exact",
    "Verif.C35_all_exact",
    "Verif.C35_long_lines_partial",
    "Verif.C35_long_lines_refuted"
   ],
   "note": "Refuted: a line of 64 KiB hides what follows without an error; C35_exact says which comments are reported, C35_all_exact when these are all."
  },
  {
   "property": "C36",
   "status": "partial",
   "theorems": [
    "Verif.C36_exact",
    "Verif.C36_favourites_partial",
    "Verif.C36_no_file",
    "Verif.C36_stale_refuted",
    "Verif.C36_entries",
    "Verif.C36_typed_accessors",
    "Verif.C36_inconsistent"
   ],
   "note": "Refuted: a stale board number panics; C36_exact is the exact law for every tree; partial: what a caller sees for every saved plain tree."
  },
  {
   "property": "C37",
   "status": "proved",
   "theorems": [
    "Verif.C37_subsequence",
    "Verif.C37_plain_unchanged",
    "Verif.C37_colour_removed",
    "Verif.C37_colour_bell"
   ],
   "note": "Subsequence and plain-text theorems for all strings; colour sequences with any groups of at most four digits, at any place after plain text, with the exact law when the text after it ends in BEL."
  },
  {
   "property": "C38",
   "status": "partial",
   "theorems": [
    "Verif.C38_idempotent_refuted",
    "Verif.C38_idempotent_partial",
    "Verif.C38_coloured_text",
    "Verif.C38_idempotent_exact",
    "Verif.C38_settles"
   ],
   "note": "Refuted by ESC ESC[m [m; C38_idempotent_exact is the exact condition; C38_settles: as many passes as the text is long always suffice; partial also for plain results and whole coloured texts."
  },
  {
   "property": "C39",
   "status": "partial",
   "theorems": [
    "Verif.C39_parse_exact",
    "Verif.C39_parse_partial",
    "Verif.C39_witness",
    "Verif.C39_colon_refuted",
    "Verif.C39_stamp_cuts",
    "Verif.C39_not_comment"
   ],
   "note": "Refuted: 'a:b' becomes 'ab:'; C39_parse_exact is the law for every text of a well-formed line (C84 for every line); partial: texts without a colon."
  },
  {
   "property": "C40",
   "status": "partial",
   "theorems": [
    "Verif.C40_exact",
    "Verif.C40_round_trip_partial",
    "Verif.C40_one_letter_refuted",
    "Verif.C40_host_refuted",
    "Verif.C40_wide_id_refuted",
    "Verif.C40_file",
    "Verif.C40_recent",
    "Verif.C40_weekday"
   ],
   "note": "Refuted: one-letter ids, hosts starting with ?/@ and ids with multi-byte characters do not survive; C40_exact is the exact law for every attempt; partial: ASCII ids of 2-12 bytes; C40_file for whole files of any length, C40_recent for recent logins."
  },
  {
   "property": "C41",
   "status": "partial",
   "theorems": [
    "Verif.C41_exact",
    "Verif.C41_long_line_partial",
    "Verif.C41_empty_line_refuted",
    "Verif.C41_short_line_refuted",
    "Verif.C41_recent",
    "Verif.C41_file_exact",
    "Verif.C41_recent_file_exact"
   ],
   "note": "Refuted: the empty line and lines cut off at the time crash the bad-login parser; C41_exact and C41_file_exact are the exact laws; recent-login lines never crash, its file reader ends the process on a 64 KiB line (exact law)."
  },
  {
   "property": "C42",
   "status": "partial",
   "theorems": [
    "Verif.C42_exact",
    "Verif.C42_shape_partial",
    "Verif.C42_nul_salt_refuted",
    "Verif.C42_salt_prefix"
   ],
   "note": "Exact law proved for every key and every salt of two ASCII bytes. The claim fails only for a NUL in the salt, which the code replaces by 'A' (C42_nul_salt_refuted)."
  },
  {
   "property": "C43",
   "status": "proved",
   "theorems": [
    "Verif.C43_seven_bits",
    "Verif.C43_prefix"
   ],
   "note": "Proved for every pair of keys and every salt, with NUL-terminated keys filled up by zeros."
  },
  {
   "property": "C44",
   "status": "proved",
   "theorems": [
    "Verif.C44_exact",
    "Verif.C44_crypt3",
    "Verif.C44_own_password",
    "Verif.C44_record",
    "Verif.C44_iff"
   ],
   "note": "Proved for every stored hash (C44_iff), for the owner with any salt (C44_own_password), against crypt(3) itself (C44_crypt3) and through the user record (C44_record)."
  },
  {
   "property": "C45",
   "status": "proved",
   "theorems": [
    "Verif.C45_crypt3"
   ],
   "note": "The bit-twiddling implementation is proved equal to FIPS 46 DES with salted expansion, iterated 25 times, for all keys and all salts of the crypt alphabet."
  },
  {
   "property": "C46",
   "status": "partial",
   "theorems": [
    "Verif.C46_exact",
    "Verif.C46_returns_partial",
    "Verif.C46_empty_hash_refuted",
    "Verif.C46_wide_byte_refuted",
    "Verif.C46_zero_record_refuted"
   ],
   "note": "False of the code: a stored hash of fewer than two bytes or with a non-ASCII byte among the first two makes VerifyPassword panic. The exact condition is proved (C46_exact)."
  },
  {
   "property": "C47",
   "status": "proved",
   "theorems": [
    "Verif.C47_own_bit",
    "Verif.C47_distinct",
    "Verif.C47_flip",
    "Verif.C47_class"
   ],
   "note": "Proved for every attribute word and every one of the board queries."
  },
  {
   "property": "C48",
   "status": "proved",
   "theorems": [
    "Verif.C48_own_bit",
    "Verif.C48_distinct",
    "Verif.C48_settings",
    "Verif.C48_error",
    "Verif.C48_returns"
   ],
   "note": "Proved for every user list; the list is a parameter because nothing in package pttbbs ever assigns its global."
  },
  {
   "property": "C49",
   "status": "proved",
   "theorems": [
    "Verif.C49_moderators",
    "Verif.C49_unique"
   ],
   "note": "Proved for every moderators string."
  },
  {
   "property": "C50",
   "status": "proved",
   "theorems": [
    "Verif.C50_disjoint",
    "Verif.C50_aligned",
    "Verif.C50_least_padding",
    "Verif.C50_align8",
    "Verif.C50_entries",
    "Verif.C50_exact"
   ],
   "note": "Proved for every layout that fits in 63 bits. Integer tables are aligned to the smaller of the setting and 4; C50_align8 shows that a setting of 8 does not make every table 8-aligned."
  },
  {
   "property": "C51",
   "status": "partial",
   "theorems": [
    "Verif.C51_reads_partial",
    "Verif.C51_user_info_never",
    "Verif.C51_user_info_if_set",
    "Verif.C51_refuted",
    "Verif.C51_alignment_zero",
    "Verif.C51_negative_bits",
    "Verif.C51_exact",
    "Verif.C51_user_info_exact"
   ],
   "note": "False of the code: reading an online record always ends in a panic because the record length is never set (C51_user_info_never). Ids, money and version are read exactly as laid out (C51_reads_partial)."
  },
  {
   "property": "C52",
   "status": "partial",
   "theorems": [
    "Verif.C52_exact",
    "Verif.C52_file_partial",
    "Verif.C52_plain",
    "Verif.C52_key",
    "Verif.C52_other",
    "Verif.C52_bad_key",
    "Verif.C52_colon_refuted",
    "Verif.C52_number_exact",
    "Verif.C52_key_exact"
   ],
   "note": "False of the code for a file name with a colon, which is cut at the colon. The exact rule is proved (C52_exact)."
  },
  {
   "property": "C53",
   "status": "proved",
   "theorems": [
    "Verif.C53_fnv1a",
    "Verif.C53_splits",
    "Verif.C53_sum",
    "Verif.C53_state",
    "Verif.C53_basis",
    "Verif.C53_offset_injective"
   ],
   "note": "Proved for every offset, byte string and split; also that the byte form is big-endian and different offsets never collide."
  },
  {
   "property": "C54",
   "status": "partial",
   "theorems": [
    "Verif.C54_exact",
    "Verif.C54_crash_exact",
    "Verif.C54_issued",
    "Verif.C54_only_here",
    "Verif.C54_refusal_partial",
    "Verif.C54_refusal_refuted"
   ],
   "note": "Issuing is proved exactly (C54_issued, C54_only_here). The refusal half is false when the stored hash is malformed, for instance an unused slot: the handler panics (C54_refusal_refuted); proved otherwise. The outcome in every case: C54_exact; when it crashes: C54_crash_exact."
  },
  {
   "property": "C55",
   "status": "partial",
   "theorems": [
    "Verif.C55_served",
    "Verif.C55_exact",
    "Verif.C55_anyone",
    "Verif.C55_token_ignored",
    "Verif.C55_refuted",
    "Verif.C55_own_data_partial"
   ],
   "note": "False of the code: checkTokenPermission always succeeds, so the token is ignored (C55_token_ignored) and anyone reads anyone's data (C55_anyone). What holds is that the data are those of the user named in the path. C55_served says exactly which requests get data, C55_exact which policies are kept: those that permit everybody everything."
  },
  {
   "property": "C56",
   "status": "partial",
   "theorems": [
    "Verif.C56_exact",
    "Verif.C56_returns_partial",
    "Verif.C56_refuted",
    "Verif.C56_parse_alone",
    "Verif.C56_getClass",
    "Verif.C56_getClass_value"
   ],
   "note": "False of the code: a login for a user with a malformed hash panics (net/http then drops the connection). This is proved to be the only case (C56_exact)."
  },
  {
   "property": "C57",
   "status": "proved",
   "theorems": [
    "Verif.C57_options",
    "Verif.C57_well_formed",
    "Verif.C57_empty"
   ],
   "note": "Proved for every argument list against an independent reading of the pairs."
  },
  {
   "property": "C58",
   "status": "proved",
   "theorems": [
    "Verif.C58_fields",
    "Verif.C58_positions_only",
    "Verif.C58_file",
    "Verif.C58_any_file",
    "Verif.C58_missing"
   ],
   "note": "Proved for all contents of fields and gaps, and for files of any length."
  },
  {
   "property": "C59",
   "status": "proved",
   "theorems": [
    "Verif.C59_no_leak"
   ],
   "note": "Proved: the answers are equal for any two password files equal on the public fields."
  },
  {
   "property": "C60",
   "status": "partial",
   "theorems": [
    "Verif.C60_exact",
    "Verif.C60_claims",
    "Verif.C60_epoch_partial",
    "Verif.C60_refuted"
   ],
   "note": "False of the code: the expiry is 1800 seconds after 1970 instead of after the moment of issue. C60_exact: accepted for half an hour exactly if issued before 1970, and accepted at all exactly if issued in its first half hour or before."
  },
  {
   "property": "C61",
   "status": "partial",
   "theorems": [
    "Verif.C61_exact",
    "Verif.C61_typed_partial",
    "Verif.C61_hash_refuted",
    "Verif.C61_logged"
   ],
   "note": "False of the code: the record and its hash are printed before the password is checked. The typed password is not logged. C61_exact: the log tells exactly the hash of the first user with the name given, and no other secret."
  },
  {
   "property": "C62",
   "status": "partial",
   "theorems": [
    "Verif.C62_refuted",
    "Verif.C62_exact",
    "Verif.C62_records_partial",
    "Verif.C62_encode"
   ],
   "note": "False of the code: no decoder checks the length. The exact length and capacity needed by each decoder are proved (C62_exact); whole records and all encoders are safe."
  },
  {
   "property": "C63",
   "status": "proved",
   "theorems": [
    "Verif.C63_boards",
    "Verif.C63_classes",
    "Verif.C63_slash",
    "Verif.C63_connect",
    "Verif.C63_users",
    "Verif.C63_nowhere",
    "Verif.C63_redirect",
    "Verif.C63_token_header",
    "Verif.C63_no_token"
   ],
   "note": "Proved for every path as a list of segments; CONNECT requests, which net/http does not canonicalise, are covered by C63_connect for every path."
  },
  {
   "property": "C64",
   "status": "partial",
   "theorems": [
    "Verif.C64_exact",
    "Verif.C64_everyone",
    "Verif.C64_refuted",
    "Verif.C64_partial"
   ],
   "note": "False of the code: the whole board file is sent to everyone (C64_everyone, C64_refuted). What holds is that nothing but that list is sent (C64_partial). C64_exact: the claim holds of a board file exactly if it has no hidden board."
  },
  {
   "property": "C65",
   "status": "partial",
   "theorems": [
    "Verif.C65_exact",
    "Verif.C65_old_password",
    "Verif.C65_refuted",
    "Verif.C65_partial"
   ],
   "note": "False of the code: both lists are loaded once at the start (C65_refuted), so an old password goes on working (C65_old_password). The exact law is C65_exact; C65_partial covers unchanged lists."
  },
  {
   "property": "C66",
   "status": "partial",
   "theorems": [
    "Verif.C66_exact",
    "Verif.C66_refuted",
    "Verif.C66_partial",
    "Verif.C66_no_file"
   ],
   "note": "False of the code only when a directory stands in the place of a list: the read loop never ends (C66_refuted). C66_exact is the exact law; a missing password file leaves a service without users (C66_no_file)."
  },
  {
   "property": "C67",
   "status": "partial",
   "theorems": [
    "Verif.C67_exact",
    "Verif.C67_errors",
    "Verif.C67_refuted"
   ],
   "note": "Exactly characterised (C67_exact, C67_errors). The part 'not empty' is refuted: empty strings are accepted (C67_refuted)."
  },
  {
   "property": "C68",
   "status": "partial",
   "theorems": [
    "Verif.C68_exact",
    "Verif.C68_reads_back_partial",
    "Verif.C68_reads_back_refuted",
    "Verif.C68_not_implemented"
   ],
   "note": "C68_exact: every record, list = old ++ [record as stored], one location changed. 'As it was made' refuted: zero times come back as 2042 and unset links as [0,0]; C68_reads_back_partial gives the exact record."
  },
  {
   "property": "C69",
   "status": "partial",
   "theorems": [
    "Verif.C69_unique_partial",
    "Verif.C69_unique_refuted"
   ],
   "note": "Refuted; C69_unique_partial gives the exact condition: the stored (cut to 13 bytes) id is not listed."
  },
  {
   "property": "C70",
   "status": "partial",
   "theorems": [
    "Verif.C70_usable_partial",
    "Verif.C70_usable_refuted",
    "Verif.C70_exact"
   ],
   "note": "Refuted: no directory is made, so name drawing never ends. C70_usable_partial and C70_exact: it ends iff the directory of the board was there before and one of the names to be drawn was free then."
  },
  {
   "property": "C71",
   "status": "partial",
   "theorems": [
    "Verif.C71_created",
    "Verif.C71_returns_partial",
    "Verif.C71_returns_refuted",
    "Verif.C71_errors"
   ],
   "note": "C71_created and C71_errors in full; termination refuted (the clock is read once, so only 4096 names exist) with the exact condition in C71_returns_partial."
  },
  {
   "property": "C72",
   "status": "partial",
   "theorems": [
    "Verif.C72_exact",
    "Verif.C72_text",
    "Verif.C72_head_partial",
    "Verif.C72_head_refuted"
   ],
   "note": "Refuted (a title may contain the time line); C72_head_partial: recoverable if the author has no blank and board and title no line end. C72_exact: recoverable exactly if the words for the board stand once in author and board, those for the title once in board and title, and those for the time once in title and time."
  },
  {
   "property": "C73",
   "status": "proved",
   "theorems": [
    "Verif.C73_flags",
    "Verif.C73_subcommand_first"
   ],
   "note": "Full: parseFlags is equivalent to an independent inductive specification of the flag rules."
  },
  {
   "property": "C74",
   "status": "partial",
   "theorems": [
    "Verif.C74_exact",
    "Verif.C74_home_partial",
    "Verif.C74_home_refuted"
   ],
   "note": "Refuted for directories with a question mark (the checked and the used directory differ); C74_exact is the exact description."
  },
  {
   "property": "C75",
   "status": "proved",
   "theorems": [
    "Verif.C75_read_only"
   ],
   "note": "Full."
  },
  {
   "property": "C76",
   "status": "partial",
   "theorems": [
    "Verif.C76_status_partial",
    "Verif.C76_status_refuted"
   ],
   "note": "Refuted: complaints are printed and the status is 0; C76_status_partial: status 2 iff the options are wrong, otherwise 0 unless it crashes or hangs."
  },
  {
   "property": "C77",
   "status": "partial",
   "theorems": [
    "Verif.C77_crash_command",
    "Verif.C77_crash_exact",
    "Verif.C77_no_user",
    "Verif.C77_crash_refuted"
   ],
   "note": "Refuted; C77_crash_exact gives the exact condition for every subcommand."
  },
  {
   "property": "C78",
   "status": "partial",
   "theorems": [
    "Verif.C78_list_exact",
    "Verif.C78_errors_told_refuted"
   ],
   "note": "C78_list_exact in full; that errors are told is refuted (the error is dropped)."
  },
  {
   "property": "C79",
   "status": "proved",
   "theorems": [
    "Verif.C79_reports_exact",
    "Verif.C79_post"
   ],
   "note": "Full: C79_reports_exact and C79_post."
  },
  {
   "property": "C80",
   "status": "proved",
   "theorems": [
    "Verif.C80_add_board",
    "Verif.C80_complaint"
   ],
   "note": "Full: C80_add_board and C80_complaint."
  },
  {
   "property": "C81",
   "status": "partial",
   "theorems": [
    "Verif.C81_comments_exact",
    "Verif.C81_board_refuted"
   ],
   "note": "Refuted (--board is ignored); C81_comments_exact is what is printed."
  },
  {
   "property": "C82",
   "status": "partial",
   "theorems": [
    "Verif.C82_ends_exact",
    "Verif.C82_ends_refuted"
   ],
   "note": "Refuted (a board without directory); C82_ends_exact is the exact condition."
  },
  {
   "property": "C83",
   "status": "proved",
   "theorems": [
    "Verif.C83_match_exact",
    "Verif.C83_filter_exact",
    "Verif.C83_unchanged_exact"
   ],
   "note": "C83_match_exact: preferred match = the specified sequence, both directions; C83_filter_exact and C83_unchanged_exact follow for whole texts."
  },
  {
   "property": "C84",
   "status": "proved",
   "theorems": [
    "Verif.C84_parse_exact",
    "Verif.C84_passed_over_exact",
    "Verif.C84_bad_time_exact",
    "Verif.C84_trimmed"
   ],
   "note": "Exact in both directions for success, for lines passed over and for lines whose stamp is no time; the trimming it mentions is pinned down by C84_trimmed."
  },
  {
   "property": "C85",
   "status": "partial",
   "theorems": [
    "Verif.C85_recent_exact",
    "Verif.C85_bad_exact",
    "Verif.C85_comment_exact",
    "Verif.C85_one_text_refuted",
    "Verif.C85_weekday_ignored"
   ],
   "note": "Exact set of accepted texts and what each gives, for all three layouts. Uniqueness is refuted: spacing, one-digit hours, fractions of a second, letter case and a contradicting day of the week are all accepted."
  },
  {
   "property": "C86",
   "status": "partial",
   "theorems": [
    "Verif.C86_sizes",
    "Verif.C86_article_exact",
    "Verif.C86_article_partial",
    "Verif.C86_article_refuted",
    "Verif.C86_board_exact",
    "Verif.C86_board_refuted",
    "Verif.C86_board_partial",
    "Verif.C86_user_exact",
    "Verif.C86_user_refuted",
    "Verif.C86_user_partial",
    "Verif.C86_online_exact",
    "Verif.C86_online_refuted"
   ],
   "note": "Refuted for all four records; the exact theorems say, for every content, which members are read as the C program sees them and what is read instead. Strings trimmed at both ends pick up leftovers behind the terminator; times and money lose their sign; an angel of 13 letters is read with the padding byte behind it; the last 13 members of an online user are read 1, 7 or 9 bytes too early. The partial theorems give the full claim under those conditions."
  },
  {
   "property": "C87",
   "status": "partial",
   "theorems": [
    "Verif.C87_open_exact",
    "Verif.C87_create_exact",
    "Verif.C87_keys_refuted",
    "Verif.C87_keys_partial",
    "Verif.C87_remove_exact",
    "Verif.C87_private_kept",
    "Verif.C87_removable_refuted",
    "Verif.C87_removable_partial"
   ],
   "note": "Open, create and remove are exact for every state. Refuted: keys that differ by 2^32 are one key, and a segment made with key 0 (or a multiple of 2^32) can never be opened or removed again and stays for ever. The partial theorems give the claims for other keys. System calls are an environment model; each call of the package is one step."
  },
  {
   "property": "C88",
   "status": "partial",
   "theorems": [
    "Verif.C88_store_exact",
    "Verif.C88_undisturbed",
    "Verif.C88_until_closed",
    "Verif.C88_only_stores",
    "Verif.C88_access_exact",
    "Verif.C88_close",
    "Verif.C88_close_twice_refuted",
    "Verif.C88_close_twice_partial"
   ],
   "note": "Proved except for closing twice, which is refuted: the address may belong to another view by then. Partial: addresses not in use again."
  },
  {
   "property": "C89",
   "status": "partial",
   "theorems": [
    "Verif.C89_open_exact",
    "Verif.C89_create_exact",
    "Verif.C89_failed_create_refuted",
    "Verif.C89_store_exact",
    "Verif.C89_view_exact",
    "Verif.C89_access_exact",
    "Verif.C89_close_exact",
    "Verif.C89_until_closed_refuted",
    "Verif.C89_until_closed_partial",
    "Verif.C89_remove_exact",
    "Verif.C89_persists"
   ],
   "note": "Exact for opening, creating, storing, removing. Refuted: a creation that fails has emptied the file; creating a file again makes accesses to old views fatal. Partial: nobody creates the file again."
  },
  {
   "property": "C90",
   "status": "partial",
   "theorems": [
    "Verif.C90_sizes",
    "Verif.C90_segsz",
    "Verif.C90_overflow_refuted",
    "Verif.C90_exact"
   ],
   "note": "The length is right; the claim about memory is refuted: the kernel writes 112 bytes into a buffer of 104. The exact theorem names the bytes changed. The kernel's structure is trusted input."
  },
  {
   "property": "C91",
   "status": "partial",
   "theorems": [
    "Verif.C91_key",
    "Verif.C91_file",
    "Verif.C91_money_live",
    "Verif.C91_sample_exact",
    "Verif.C91_sample_refuted"
   ],
   "note": "Opening and live reading are proved; the sample program is refuted: it always prints an error or divides by zero."
  },
  {
   "property": "C92",
   "status": "partial",
   "theorems": [
    "Verif.C92_torn_refuted",
    "Verif.C92_untorn_partial",
    "Verif.C92_bytes",
    "Verif.C92_one_change",
    "Verif.C92_new",
    "Verif.C92_between",
    "Verif.C92_halves",
    "Verif.C92_old",
    "Verif.C92_exact"
   ],
   "note": "Refuted: the position of the NUL and the bytes are read at different times. Partial: nobody writes to the entry meanwhile; always: length and single bytes. For one change at any time C92_one_change says exactly what is read, and C92_new, C92_between, C92_halves, C92_old say when it is the new id, the new entry at the old length, two halves, or the old id. For any number of changes at any times C92_exact says which strings can be read and which cannot."
  },
  {
   "property": "C93",
   "status": "proved",
   "theorems": [
    "Verif.C93_ascii",
    "Verif.C93_ascii_text"
   ],
   "note": "Proved for all tables."
  },
  {
   "property": "C94",
   "status": "partial",
   "theorems": [
    "Verif.C94_exact",
    "Verif.C94_split",
    "Verif.C94_loses_refuted",
    "Verif.C94_loses_partial"
   ],
   "note": "Refuted for all tables that lack some character: everything behind the first such character or invalid byte is dropped (exact law). Partial: texts of Big5 characters."
  },
  {
   "property": "C95",
   "status": "partial",
   "theorems": [
    "Verif.C95_roundtrip",
    "Verif.C95_decoded_utf8",
    "Verif.C95_four_pairs",
    "Verif.C95_resave_exact",
    "Verif.C95_resave_refuted",
    "Verif.C95_resave_drops",
    "Verif.C95_shape"
   ],
   "note": "Texts survive. The claim for bytes is refuted; exactly the Big5 forms of texts survive, and everything from the first undecodable byte on is dropped."
  },
  {
   "property": "C96",
   "status": "partial",
   "theorems": [
    "Verif.C96_cut_exact",
    "Verif.C96_cut_refuted",
    "Verif.C96_cut_partial"
   ],
   "note": "Refuted: a cut inside a character leaves U+FFFD. Exact law for all texts and lengths; partial when the boundary is between characters."
  },
  {
   "property": "C97",
   "status": "partial",
   "theorems": [
    "Verif.C97_titles_exact",
    "Verif.C97_recommend_exact",
    "Verif.C97_recommend_refuted",
    "Verif.C97_recommend_partial"
   ],
   "note": "Title contents are exact. The recommendation claim is refuted; exact law, and partial for titles that are the Big5 form of a text."
  },
  {
   "property": "C98",
   "status": "partial",
   "theorems": [
    "Verif.C98_texts_refuted",
    "Verif.C98_user_exact",
    "Verif.C98_online_exact",
    "Verif.C98_texts_partial",
    "Verif.C98_post_exact",
    "Verif.C98_post_refuted",
    "Verif.C98_post_partial"
   ],
   "note": "Refuted twice: id, password, host, angel and chat name are encoded but not decoded, so a Chinese chat name comes back as raw Big5 bytes; and an article is shown only up to the first character that Big5 lacks. Exact laws; partial for ASCII in those fields and for texts of Big5 characters."
  },
  {
   "property": "C99",
   "status": "partial",
   "theorems": [
    "Verif.C99_recommend_exact",
    "Verif.C99_count_of_some",
    "Verif.C99_every_choice",
    "Verif.C99_recommend_refuted",
    "Verif.C99_recommend_partial",
    "Verif.C99_rest_kept"
   ],
   "note": "The code violates the property: the lock is empty and the update writes back what was read earlier. Refuted for two callers. Exact: every schedule behaves as a shared count that callers look at and store; the final count is the old one plus the amounts of some callers, always with the last writer, and every such choice happens. Other records keep their bytes, the other fields keep their values. All are counted when the callers take turns."
  },
  {
   "property": "C100",
   "status": "partial",
   "theorems": [
    "Verif.C100_articles_exact",
    "Verif.C100_boards_exact",
    "Verif.C100_chased",
    "Verif.C100_snapshot_partial",
    "Verif.C100_snapshot_refuted",
    "Verif.C100_removal_refuted",
    "Verif.C100_removal_partial",
    "Verif.C100_torn_append"
   ],
   "note": "The code violates the property: the list is read record by record without a lock. Refuted for updates (a list that never existed) and for a board removal (a board that stays is missing). Exact: entry i is what slot i held at read number i; with appends only, the result is the list at the last read; during a removal each entry is the first bytes of the next board and the rest of its own; a half-written record is taken for a whole one. A reader that appenders stay ahead of does not return."
  },
  {
   "property": "C101",
   "status": "partial",
   "theorems": [
    "Verif.C101_mix_exact",
    "Verif.C101_last_opener",
    "Verif.C101_draft_refuted",
    "Verif.C101_draft_partial",
    "Verif.C101_every_prefix",
    "Verif.C101_mix_refuted",
    "Verif.C101_mix_bytes",
    "Verif.C101_hole",
    "Verif.C101_mix_partial"
   ],
   "note": "The code violates the property: the file is truncated before it is written. Refuted for one and for two writers. Exact for one writer: the old text, or the first bytes of the new one, and every such beginning is a crash point (C101_draft_partial, C101_every_prefix). Exact for several that have all finished (C101_mix_exact): one of them was the last to open the draft, the others had written some bytes by then, and at every place stands what any of those who still had that byte to write wrote, or NUL; every such mixture is left by some interleaving. At any moment every byte is one that some process writes there, or NUL (C101_mix_bytes, C101_hole); a save that nobody disturbs after it opened the file leaves its text (C101_mix_partial)."
  },
  {
   "property": "C102",
   "status": "partial",
   "theorems": [
    "Verif.C102_crash_exact",
    "Verif.C102_points",
    "Verif.C102_listed_partial",
    "Verif.C102_listed_refuted",
    "Verif.C102_torn"
   ],
   "note": "The code violates the property: the record is put in the list before the text is written. Refuted (C102_listed_refuted). Exact for every crash point: what the file and the list hold, and that nothing else has changed (C102_crash_exact, C102_points); a whole record has a file with a beginning of the text; a torn record lists a cut name (C102_torn)."
  },
  {
   "property": "C103",
   "status": "partial",
   "theorems": [
    "Verif.C103_database_is_a_map",
    "Verif.C103_others_kept",
    "Verif.C103_never_written",
    "Verif.C103_commute",
    "Verif.C103_independent_refuted",
    "Verif.C103_exact",
    "Verif.C103_forged"
   ],
   "note": "Refuted for reserved names: writing the article .DIR replaces the list of the board (C103_forged says with what). C103_exact has the law for all histories whose names are single path components, reserved or not, in directories that exist: the calls answer as the map from the objects that are meant does."
  },
  {
   "property": "C104",
   "status": "partial",
   "theorems": [
    "Verif.C104_read_back",
    "Verif.C104_user",
    "Verif.C104_boards",
    "Verif.C104_errors",
    "Verif.C104_loaded_boards",
    "Verif.C104_record_partial",
    "Verif.C104_record_refuted",
    "Verif.C104_record_exact"
   ],
   "note": "Every body is valid UTF-8 and JSON and reads back as the value (C104_read_back, C104_boards, C104_user, C104_loaded_boards, C104_errors). Exactness for a user record refuted: name and address are not decoded, so bytes that are no UTF-8 are written as U+FFFD; partial for names and addresses that are text. Exactly when the record is told faithfully: C104_record_exact."
  },
  {
   "property": "C105",
   "status": "partial",
   "theorems": [
    "Verif.C105_hidden",
    "Verif.C105_title_refuted",
    "Verif.C105_moderators_refuted",
    "Verif.C105_shown_partial"
   ],
   "note": "Refuted: the two fields are not exported, so the list does not depend on them (C105_hidden). Everything else can be told from the list."
  },
  {
   "property": "C106",
   "status": "partial",
   "theorems": [
    "Verif.C106_instant_exact",
    "Verif.C106_instant_partial",
    "Verif.C106_instant_refuted",
    "Verif.C106_writable_exact"
   ],
   "note": "Refuted for zones with odd seconds, which RFC 3339 cannot express; exact law for all zones, partial for zones of whole minutes. A time can be written iff its year has four digits."
  },
  {
   "property": "C107",
   "status": "partial",
   "theorems": [
    "Verif.C107_exact",
    "Verif.C107_served_partial",
    "Verif.C107_login_refuted",
    "Verif.C107_method_refuted",
    "Verif.C107_never_unauthorized",
    "Verif.C107_unknown_user",
    "Verif.C107_not_found",
    "Verif.C107_not_implemented",
    "Verif.C107_moved",
    "Verif.C107_bad"
   ],
   "note": "Refuted twice: a refused login and a wrong method are answered with status 200. Exact characterisation; nobody is ever answered 401; an unknown user is answered 500."
  },
  {
   "property": "C108",
   "status": "partial",
   "theorems": [
    "Verif.C108_unclosed_exact",
    "Verif.C108_closed_partial",
    "Verif.C108_closed_refuted",
    "Verif.C108_piles_up",
    "Verif.C108_mmap_refuted",
    "Verif.C108_mmap_exact",
    "Verif.C108_mmap_closed_partial"
   ],
   "note": "Refuted: six list readers never close their file, and a mapped file stays open when it cannot be sized or mapped. Exact law for these (the file is open afterwards iff it could be opened; n calls leave n files); all other calls close what they open whatever fails, and closing a mapped file gives it back. The finaliser that the Go runtime may run later is not part of the model."
  },
  {
   "property": "C109",
   "status": "partial",
   "theorems": [
    "Verif.C109_add_exact",
    "Verif.C109_remove_exact",
    "Verif.C109_locks_partial",
    "Verif.C109_locks_refuted"
   ],
   "note": "Refuted: a failed write while a board is added, or a failed step while one is removed, returns without the unlock. C109_add_exact and C109_remove_exact: the lock stays iff the file was opened and locked and the call failed. All other calls give it back in every case."
  },
  {
   "property": "C110",
   "status": "partial",
   "theorems": [
    "Verif.C110_guarded_partial",
    "Verif.C110_guarded_refuted",
    "Verif.C110_bare_exact",
    "Verif.C110_no_stray"
   ],
   "note": "Refuted: saving a draft and appending to an article write without a lock (exact: one such write iff the file opens). Proved for all others; proved for all calls: no operation on a file that is not open, no unlock without a lock."
  },
  {
   "property": "C111",
   "status": "partial",
   "theorems": [
    "Verif.C111_exact",
    "Verif.C111_stored_partial",
    "Verif.C111_success_partial",
    "Verif.C111_success_refuted"
   ],
   "note": "Refuted for six calls: five list readers ignore read errors and the removal of a board ignores a failed truncation. Proved for all others; for all calls, success means that no lock, seek, conversion or write failed. C111_exact: what may have failed is a read of the five readers or the cut of a removal, and nothing else."
  },
  {
   "property": "C112",
   "status": "partial",
   "theorems": [
    "Verif.C112_exact",
    "Verif.C112_unreadable_refuted",
    "Verif.C112_unreadable_partial"
   ],
   "note": "Refuted: the listings of boards, users and articles (both formats) never return on a path that opens but does not read, such as a directory. Exact; the online list and the article reader return an error."
  },
  {
   "property": "C113",
   "status": "proved",
   "theorems": [
    "Verif.C113_cut",
    "Verif.C113_exact",
    "Verif.C113_lines",
    "Verif.C113_low_bytes",
    "Verif.C113_terminator"
   ],
   "note": "Proved for every byte string, also for broken ones. The bytes at which one may cut are exactly those below 0x40: letters, backslash and bar can be the second half of a character."
  },
  {
   "property": "C114",
   "status": "partial",
   "theorems": [
    "Verif.C114_crash_exact",
    "Verif.C114_hang_exact",
    "Verif.C114_returns_partial",
    "Verif.C114_returns_refuted"
   ],
   "note": "False of the code: an empty user or board name indexes an empty string and panics; favourites naming a missing board panic; a directory in the place of a list is read forever. Proved exactly: those are the only crashes and the only calls that do not return (creating an article may also fail to find a name, see C25)."
  },
  {
   "property": "C115",
   "status": "partial",
   "theorems": [
    "Verif.C115_exact",
    "Verif.C115_any_source",
    "Verif.C115_file",
    "Verif.C115_exists",
    "Verif.C115_roundtrip_partial",
    "Verif.C115_roundtrip_refuted"
   ],
   "note": "False of the code because C06 is: three game scores come back as those of other games. Everything else is proved: number and order of records, the zero-filled tail, and that a failing read gives an error and no records (unlike the other readers, see C17). C115_exact: the records come back exactly if those scores agree."
  },
  {
   "property": "C116",
   "status": "partial",
   "theorems": [
    "Verif.C116_linearizable_partial",
    "Verif.C116_some_order_partial",
    "Verif.C116_obstruction_free",
    "Verif.C116_write_draft_refuted",
    "Verif.C116_delete_draft_refuted",
    "Verif.C116_write_article_refuted",
    "Verif.C116_first_board_refuted",
    "Verif.C116_broken_list_refuted",
    "Verif.C116_linearizable_refuted"
   ],
   "note": "Proved for all clients, calls and interleavings of system calls when whatever one client changes and another touches is only added to (articles by appending, lists of whole records, a board list that exists): each call takes effect at one moment, a sequential order with the same answers and contents exists, and a client left alone gets its answer. Refuted, one witness each, for drafts that are written, drafts that are deleted, articles that are overwritten, the first board, and lists with an incomplete record: the locks do nothing and files are opened, truncated and written in separate steps."
  },
  {
   "property": "C117",
   "status": "proved",
   "theorems": [
    "Verif.C117_race_free",
    "Verif.C117_linearizable",
    "Verif.C117_races_refuted",
    "Verif.C117_obstruction_free"
   ],
   "note": "Proved for all scripts and interleavings. A race is judged on the ideal database only (one call at a time); drafts, board lists that do not exist yet and overwritten articles make races, adding to articles and to lists of whole records does not. Without the condition the claim is refuted."
  },
  {
   "property": "C118",
   "status": "partial",
   "theorems": [
    "Verif.C118_race_free",
    "Verif.C118_atomic",
    "Verif.C118_finished",
    "Verif.C118_added",
    "Verif.C118_whole_articles",
    "Verif.C118_comments_stay",
    "Verif.C118_posts_arrive",
    "Verif.C118_tool_whole_articles_refuted",
    "Verif.C118_tool_comments_refuted",
    "Verif.C118_tool_posts_arrive_refuted"
   ],
   "note": "Proved when a post creates the file, writes the text and then adds the record, and for all clients that keep to rules stated in Spec/Decent (read and add to articles found in a list, write to articles of one's own that are in no list, keep to one's own drafts). Refuted for the order used by the command-line tool (file, record, text): a reader gets an empty article, and an accepted comment is overwritten by the text. A listed article without its text is also seen between two calls of the tool (C118_tool_posts_arrive_refuted); C133 says what holds of its order."
  },
  {
   "property": "C119",
   "status": "partial",
   "theorems": [
    "Verif.C119_alone",
    "Verif.C119_articles",
    "Verif.C119_comments",
    "Verif.C119_articles_found",
    "Verif.C119_comments_partial",
    "Verif.C119_comments_refuted"
   ],
   "note": "Proved for articles in full. Proved for comments when articles, texts and comments end with a newline (C119_comments_partial); refuted without that condition: a comment added to an unfinished line merges with the comment in that line. Clients keep to the rules of Spec/Decent, or are posters (file, text, record) and guests."
  },
  {
   "property": "C120",
   "status": "proved",
   "theorems": [
    "Verif.C120_alone",
    "Verif.C120_hangs"
   ],
   "note": "Proved in full, on every disk. The reads of a list may be divided in any way."
  },
  {
   "property": "C121",
   "status": "proved",
   "theorems": [
    "Verif.C121_left",
    "Verif.C121_exact",
    "Verif.C121_clean",
    "Verif.C121_atomic_refuted",
    "Verif.C121_draft_lost"
   ],
   "note": "Proved in full and exactly: a disk can be left if and only if it is one of those described (C121_left, C121_exact). That every call has happened or not is refuted (C121_atomic_refuted): a draft saved again is emptied first, so both texts can be lost (C121_draft_lost). Simplification: what earlier system calls wrote is on the disk."
  },
  {
   "property": "C122",
   "status": "partial",
   "theorems": [
    "Verif.C122_posts_survive",
    "Verif.C122_comments_survive",
    "Verif.C122_starts_again",
    "Verif.C122_lives",
    "Verif.C122_tool_refuted",
    "Verif.C122_torn_refuted"
   ],
   "note": "Proved when a post creates the file, writes the text and then adds the record (C122_posts_survive, C122_comments_survive), and that clients can go on after a stop between system calls (C122_starts_again, C122_lives). Refuted for the order in which the tool posts (C122_tool_refuted): a listed article without its text. Going on is refuted when a record is torn (C122_torn_refuted); C16 says what happens then. Simplification: what earlier system calls wrote is on the disk. C134 says what holds of the tool's order."
  },
  {
   "property": "C123",
   "status": "proved",
   "theorems": [
    "Verif.C123_asks",
    "Verif.C123_boards",
    "Verif.C123_users",
    "Verif.C123_articles",
    "Verif.C123_comments",
    "Verif.C123_article",
    "Verif.C123_not_opened",
    "Verif.C123_unknown",
    "Verif.C123_whole",
    "Verif.C123_notice"
   ],
   "note": "Exact output of every subcommand that shows something (the article list and the comments are C78 and C81), of every missing argument, of a directory that cannot be opened, of an unknown subcommand, and of the three lines printed first. Error texts of the operating system are strings of the model."
  },
  {
   "property": "C124",
   "status": "proved",
   "theorems": [
    "Verif.C124_numbered",
    "Verif.C124_exact",
    "Verif.C124_race_free",
    "Verif.C124_linearizable",
    "Verif.C124_alone",
    "Verif.C124_kept",
    "Verif.C124_read",
    "Verif.C124_condition_needed"
   ],
   "note": "Proved as stated, for every schedule of any number of clients. C124_condition_needed: without the condition (a draft removed while another client has it open for writing) the two ways of knowing open files give different answers. Trusted: Disk.step as a model of POSIX files without links and renames."
  },
  {
   "property": "C125",
   "status": "partial",
   "theorems": [
    "Verif.C125_bounded_partial",
    "Verif.C125_writers",
    "Verif.C125_create",
    "Verif.C125_all_end",
    "Verif.C125_chased",
    "Verif.C125_refuted"
   ],
   "note": "Refuted (C125_refuted, C125_chased: for every existing list): readers read to an end that moves. C125_bounded_partial gives the number of steps for every call, C125_writers and C125_create what does not depend on sizes, C125_all_end the end of all scripts under every fair schedule without end. Assumed for lists: no directory has the name of a list (C114: such a list is read for ever)."
  },
  {
   "property": "C126",
   "status": "partial",
   "theorems": [
    "Verif.C126_exact",
    "Verif.C126_partial",
    "Verif.C126_agrees_partial",
    "Verif.C126_refuted"
   ],
   "note": "The code searches the whole text of the error, which contains the path. A store directory or a board name with the phrase 'no such file or directory' makes every failure to open a list look like a missing list (C126_refuted; the example has such a board name). C126_exact says exactly when the answer is an empty list. C126_partial: without the phrase in the two names an empty answer is true and every other error is told. C126_agrees_partial: there the reader is the one the other theorems are about."
  },
  {
   "property": "C127",
   "status": "partial",
   "theorems": [
    "Verif.C127_answers",
    "Verif.C127_success",
    "Verif.C127_exact",
    "Verif.C127_own_file_partial",
    "Verif.C127_draft_lost",
    "Verif.C127_refuted",
    "Verif.C127_create",
    "Verif.C127_create_hangs",
    "Verif.C127_again_exact",
    "Verif.C127_again_refuted"
   ],
   "note": "Refuted twice: a draft that is saved again is gone (C127_refuted, C127_draft_lost: for every existing draft), and after a record of which some bytes were stored every later record is read shifted (C127_again_refuted, C127_again_exact). C127_exact gives exactly the disks on which a call can fail; C127_success: success means that everything was done; C127_own_file_partial: only the call's own file can differ. Claiming a name on a full disk does not return (C127_create, C127_create_hangs)."
  },
  {
   "property": "C128",
   "status": "partial",
   "theorems": [
    "Verif.C128_one_meaning",
    "Verif.C128_one_spelling",
    "Verif.C128_reads",
    "Verif.C128_carried",
    "Verif.C128_names_exact",
    "Verif.C128_names_partial",
    "Verif.C128_names_refuted",
    "Verif.C128_unsigned"
   ],
   "note": "Refuted for names that are no UTF-8: the JSON encoder writes U+FFFD for every such byte, so the users A4 and A5 get tokens with the same claims (C128_names_refuted). Exact law for all names; partial for valid UTF-8. What a token says, that it has one meaning and one spelling, and that it survives the body and the header are proved in full. If signing fails the answer is status 200 with an empty token (C128_unsigned)."
  },
  {
   "property": "C129",
   "status": "partial",
   "theorems": [
    "Verif.C129_one_call",
    "Verif.C129_added",
    "Verif.C129_partial",
    "Verif.C129_refuted",
    "Verif.C129_texts_refuted"
   ],
   "note": "Refuted: no file is ever synced, so an answered post may be gone (C129_refuted), and even if its record is stored its text may not be (C129_texts_refuted), although C122 holds when only the program stops. Partial: every list has its old records and then whole records of some posts, and stored articles keep their texts (C129_partial); whatever is only added to is between what was stored and what was answered (C129_added). If the disk is stored before each call, the power leaves exactly what a stop of the machine leaves, C121 (C129_one_call). Simplification: one file is not a mixture of several moments."
  },
  {
   "property": "C130",
   "status": "partial",
   "theorems": [
    "Verif.C130_exact",
    "Verif.C130_torn_refuted",
    "Verif.C130_partial",
    "Verif.C130_one_load",
    "Verif.C130_small",
    "Verif.C130_sign",
    "Verif.C130_still"
   ],
   "note": "Refuted: the four bytes of a number may be loaded one by one, so 255 becoming 256 may be read as 511 or as 0 (C130_torn_refuted). Proved: byte k of the number read is byte k of the number that stood there when it was loaded; changes of a single byte, in particular numbers that stay below 256, and a single load of all bytes give a number that stood there; the sign is right; without a writer it is the number of the cache."
  },
  {
   "property": "C131",
   "status": "proved",
   "theorems": [
    "Verif.C131_boards",
    "Verif.C131_articles",
    "Verif.C131_order",
    "Verif.C131_comments",
    "Verif.C131_texts",
    "Verif.C131_drafts",
    "Verif.C131_searches",
    "Verif.C131_pushes"
   ],
   "note": "Proved for all clients that keep to the rules of C118, and for every place at which the history is cut, without waiting for a moment at which no call is under way: C131_boards, C131_articles, C131_order, C131_comments, C131_texts, C131_drafts, C131_searches, and C131_pushes for the search for comments (when articles end with whole lines, as in C119_comments). The rules are those of C118: who posts with the tool's order of calls does not keep to them, and C118_tool_comments_refuted shows a comment that is lost."
  },
  {
   "property": "C132",
   "status": "partial",
   "theorems": [
    "Verif.C132_exact_refuted",
    "Verif.C132_others_refuted",
    "Verif.C132_named_refuted",
    "Verif.C132_blank_refuted",
    "Verif.C132_near_partial",
    "Verif.C132_count_partial",
    "Verif.C132_shorter_partial",
    "Verif.C132_below_partial",
    "Verif.C132_in_turn_partial",
    "Verif.C132_readers_partial"
   ],
   "note": "False of the code: the lock is empty. With two removals at once a board that nobody named is lost and a removed one is back (C132_exact_refuted, C132_others_refuted, C132_named_refuted); with three a blank board appears (C132_blank_refuted). What every interleaving of any number of removals and additions keeps is proved: whole entries only, each blank, added, or from the list and at most one place lower for each removal begun (C132_near_partial); the list is shorter by at most one entry for each removal begun and, with valid indices and no additions, by at least one once any has returned (C132_count_partial, C132_shorter_partial); boards before all the removed ones stay (C132_below_partial); removals in turn are exact (C132_in_turn_partial). What somebody reading at the same time can get: C132_readers_partial."
  },
  {
   "property": "C133",
   "status": "proved",
   "theorems": [
    "Verif.C133_readers_leave_no_trace",
    "Verif.C133_tool_posts_arrive",
    "Verif.C133_comments_stay",
    "Verif.C133_all_through"
   ],
   "note": "Proved (C133_readers_leave_no_trace, C133_tool_posts_arrive, C133_all_through, C133_comments_stay). The readers are left out first; the other clients never race although the tool writes the text into an article that is listed already. The stronger claims of C118 (a listed article has its text, every accepted comment stays) are false of the tool's order: C118_tool_posts_arrive_refuted, C118_tool_whole_articles_refuted, C118_tool_comments_refuted."
  },
  {
   "property": "C134",
   "status": "proved",
   "theorems": [
    "Verif.C134_tool_posts_survive",
    "Verif.C134_comments_survive",
    "Verif.C134_starts_again",
    "Verif.C134_lives"
   ],
   "note": "Proved (C134_tool_posts_survive, C134_comments_survive, C134_starts_again, C134_lives). That a listed article has its whole text after a stop is false of the tool's order (C122_tool_refuted); going on after a torn record is refuted by C122_torn_refuted. Simplification: what earlier system calls wrote is on the disk."
  },
  {
   "property": "C135",
   "status": "partial",
   "theorems": [
    "Verif.C135_tape_changes_nothing",
    "Verif.C135_own_paths",
    "Verif.C135_stops_partial",
    "Verif.C135_success_partial",
    "Verif.C135_readers",
    "Verif.C135_pttbbs",
    "Verif.C135_pttbbs_searches",
    "Verif.C135_foreign",
    "Verif.C135_null",
    "Verif.C135_null_unopened",
    "Verif.C135_refuted"
   ],
   "note": "Own paths, stopping and reading are proved for every driver (C135_own_paths, C135_stops_partial, C135_readers); writing down what is asked changes nothing (C135_tape_changes_nothing). That a success has had no failing method is false (C135_refuted): reading the list of a board with an error that contains \"no such file or directory\" counts as an empty list; this is the only exception (C135_success_partial). In front of pttbbs the calls are those of the other files of the model (C135_pttbbs, C135_pttbbs_searches); a foreign record is refused (C135_foreign), a nil record panics after the file is made (C135_null)."
  },
  {
   "property": "C136",
   "status": "partial",
   "theorems": [
    "Verif.C136_crash_exact",
    "Verif.C136_partial",
    "Verif.C136_nothing_done",
    "Verif.C136_checked",
    "Verif.C136_refuted"
   ],
   "note": "False of the code (C136_refuted): most methods assert the interface without looking. Exactly when a call crashes is C136_crash_exact; it has changed nothing by then (C136_nothing_done); with all interfaces and a draft that is not nil nothing crashes (C136_partial); the two methods that look return an error (C136_checked)."
  },
  {
   "property": "C137",
   "status": "partial",
   "theorems": [
    "Verif.C137_articles_exact",
    "Verif.C137_comments_exact",
    "Verif.C137_kept_articles",
    "Verif.C137_kept_comments",
    "Verif.C137_faithful_articles",
    "Verif.C137_faithful_comments",
    "Verif.C137_refuted"
   ],
   "note": "Without a kept list proved (C137_articles_exact, C137_comments_exact). A kept list that is not empty is given out as it is, nothing else is asked (C137_kept_articles, C137_kept_comments), so one that is out of date is a wrong answer (C137_refuted); an empty one, or one that is what the search finds, makes no difference (C137_faithful_articles, C137_faithful_comments)."
  },
  {
   "property": "C138",
   "status": "partial",
   "theorems": [
    "Verif.C138_stays_refuted",
    "Verif.C138_money_refuted",
    "Verif.C138_money_other",
    "Verif.C138_stays_partial",
    "Verif.C138_money_partial",
    "Verif.C138_collected",
    "Verif.C138_closed_left",
    "Verif.C138_twice_refuted"
   ],
   "note": "Violated: the slice from Bytes points outside the Go heap and does not keep the cache reachable, so after the last use of the cache the finalizer may unmap memory that is still read (C138_stays_refuted); Money makes its last use of the cache before it reads the bytes and may fault (C138_money_refuted) or read another cache's bytes (C138_money_other); closing one cache twice can unmap another (C138_twice_refuted). Proved: while the program still refers to a cache and closes nothing twice the memory stays the same (C138_stays_partial, C138_money_partial); the runtime releases a dropped cache exactly once and touches no other (C138_collected) and never one the program has closed (C138_closed_left)."
  },
  {
   "property": "C139",
   "status": "partial",
   "theorems": [
    "Verif.C139_partial",
    "Verif.C139_makers",
    "Verif.C139_draft",
    "Verif.C139_draft_empty",
    "Verif.C139_users",
    "Verif.C139_boards",
    "Verif.C139_treasures",
    "Verif.C139_articles",
    "Verif.C139_favourites",
    "Verif.C139_lists_exact",
    "Verif.C139_endless",
    "Verif.C139_create",
    "Verif.C139_create_hangs",
    "Verif.C139_draft_refuted",
    "Verif.C139_save_refuted",
    "Verif.C139_list_refuted",
    "Verif.C139_refuted"
   ],
   "note": "Violated: ReadUserDraft and ReadUserFavoriteRecordsFile take every error of Stat for a missing file, so a draft that cannot be looked at is answered as an empty one (C139_draft_refuted, C139_draft_empty); the readers of lists look for the end of the file only and take the buffer for a record after any other error, so a read that is refused once becomes a blank user, board or article (C139_list_refuted; C139_lists_exact: the possible answers are exactly the right list with blank records put in anywhere), favourites then get the names of other boards (C139_favourites), and a list that stays unreadable is never answered (C139_endless); claiming a name never answers with a refusal and goes on for ever (C139_create, C139_create_hangs); a draft whose saving is refused at the write is empty afterwards (C139_save_refuted). Proved: reading an article or a treasure, adding to an article and deleting a draft tell the refusal and change nothing (C139_partial); calls that make their file tell it too, and leave at most the file made or the draft emptied (C139_makers); C139_users, C139_boards, C139_treasures, C139_articles, C139_draft and C139_favourites say what the other calls can answer."
  },
  {
   "property": "C140",
   "status": "partial",
   "theorems": [
    "Verif.C140_one_call",
    "Verif.C140_partial",
    "Verif.C140_closed",
    "Verif.C140_collected",
    "Verif.C140_refuted",
    "Verif.C140_exhausted"
   ],
   "note": "Violated: six list readers never close their file, so no number suffices (C140_refuted); once the limit is reached every call is in vain, and the two that look for a free name do not return (C140_exhausted). Proved: one call needs one descriptor more, removing a board two (C140_one_call); if at most k of the six are made between two runs of the collector, k + 2 suffice for any number of calls, whatever fails (C140_partial), and two if none of the six is made (C140_closed); after the collector has run only the files of the program are open (C140_collected)."
  },
  {
   "property": "C141",
   "status": "partial",
   "theorems": [
    "Verif.C141_exact",
    "Verif.C141_partial",
    "Verif.C141_store",
    "Verif.C141_store_outside",
    "Verif.C141_append",
    "Verif.C141_others",
    "Verif.C141_append_new",
    "Verif.C141_file",
    "Verif.C141_file_all",
    "Verif.C141_same",
    "Verif.C141_file_same",
    "Verif.C141_refuted",
    "Verif.C141_fields_refuted"
   ],
   "note": "Violated: the messages of a decoded record are slices of the buffer, so they change with it (C141_refuted), and since their capacity reaches to the end of the buffer, appending to one overwrites the next (C141_fields_refuted, C141_append), unless there is not enough room behind it, when a new block is made and nothing else changes (C141_append_new). Proved: exactly the messages change, to what is in the buffer then (C141_exact); nothing changes while those 1000 bytes stay as they are (C141_partial); a byte stored through a message is stored in the buffer and changes nothing else of the record (C141_store, C141_store_outside), and nothing of a record elsewhere (C141_others); the records of a file have a block of their own each and do not disturb one another (C141_file, C141_file_all)."
  },
  {
   "property": "C142",
   "status": "partial",
   "theorems": [
    "Verif.C142_edits",
    "Verif.C142_partial",
    "Verif.C142_exact",
    "Verif.C142_refuted",
    "Verif.C142_boards",
    "Verif.C142_users",
    "Verif.C142_found",
    "Verif.C142_found_list",
    "Verif.C142_comment"
   ],
   "note": "Violated for the money of an article, which is lost when the record is saved (C142_refuted). Proved: everything else (C142_partial); for every content and every value, cut or wrapped as it may be, what is told after saving (C142_exact) and what each field holds after any edits (C142_edits); boards and users in full (C142_boards, C142_users; the moderators of a board must have nothing behind their terminator, else C86); the four methods of an article that was found and the seven of a comment, whose address is always empty (C142_found, C142_found_list, C142_comment)."
  },
  {
   "property": "C143",
   "status": "partial",
   "theorems": [
    "Verif.C143_fits",
    "Verif.C143_clients",
    "Verif.C143_short",
    "Verif.C143_refusals",
    "Verif.C143_partial",
    "Verif.C143_draft",
    "Verif.C143_favourites",
    "Verif.C143_create",
    "Verif.C143_names",
    "Verif.C143_free",
    "Verif.C143_draft_refuted",
    "Verif.C143_create_refuted",
    "Verif.C143_refuted"
   ],
   "note": "Violated: the reader of drafts and that of favourites take a name that is too long for one that is free and answer with nothing (C143_draft, C143_favourites, C143_draft_refuted), and a new article on a board whose name is too long is looked a name for without end (C143_create, C143_create_refuted). Proved: all other calls say so and change nothing (C143_partial); names of at most 255 bytes below a home directory of at most 2048 fit, and then the limits do not show, alone or with any number of clients (C143_short, C143_fits, C143_clients); every run within the limits is a run under refusals, of which C139 speaks (C143_refusals); no name on the disk gets too long, whatever is asked (C143_names), and on such a disk a component that is too long would have been a missing file without the limits too (C143_free). Simplification: the system looks a path up from the left and stops at what is missing before it sees a long component."
  },
  {
   "property": "C144",
   "status": "partial",
   "theorems": [
    "Verif.C144_exact",
    "Verif.C144_partial",
    "Verif.C144_same",
    "Verif.C144_windows",
    "Verif.C144_pttbbs",
    "Verif.C144_refuted",
    "Verif.C144_key_refuted",
    "Verif.C144_close"
   ],
   "note": "Violated: the pointer that OpenMmap or OpenKey returns is converted to the interface even if it is nil, so a file or key that cannot be opened gives a value that is not nil and crashes when used or closed (C144_refuted, C144_key_refuted). Proved: a connection string that is refused gives nil (C144_partial); when exactly the value is nil, useless or readable, with nothing changed by a failure (C144_exact, C144_same); on Windows nothing can ever be opened (C144_windows); the cache of package pttbbs, which tests the error first, is nil exactly after an error (C144_pttbbs)."
  },
  {
   "property": "C145",
   "status": "proved",
   "theorems": [
    "Verif.C145_added",
    "Verif.C145_articles",
    "Verif.C145_boards",
    "Verif.C145_condition_needed"
   ],
   "note": "Proved for every file that only adding calls write to (C145_added), at every moment and not only at rest; for lists of articles and of boards made of whole records, record by record (C145_articles, C145_boards). The condition on the other calls is needed: writing an article goes over what is there (C145_condition_needed). Simplification: a write that is refused stores nothing; on a full disk a part of it may be stored, which is C127."
  },
  {
   "property": "C146",
   "status": "partial",
   "theorems": [
    "Verif.C146_pieces",
    "Verif.C146_text",
    "Verif.C146_old",
    "Verif.C146_partial",
    "Verif.C146_refuted",
    "Verif.C146_exact",
    "Verif.C146_boards_exact",
    "Verif.C146_boards_partial"
   ],
   "note": "Violated: after a part of one client's record was stored, the record of another client, who is told of success, is not in the list (C146_refuted). Proved: what is answered with success is in the file in one piece, and every other piece is a beginning as long as the room there was (C146_pieces, C146_text); what was in the list before is read as before (C146_old); the full claim if a write finds room for a whole record or for nothing, for lists of articles and for the list of boards (C146_partial, C146_boards_partial). C146_exact and C146_boards_exact say where each stored record is read: in its place exactly if the parts before it make up whole records, otherwise in two records, and which. One client alone is C127, a refused write that stores nothing is C145."
  },
  {
   "property": "C147",
   "status": "partial",
   "theorems": [
    "Verif.C147_under",
    "Verif.C147_added",
    "Verif.C147_made",
    "Verif.C147_kept",
    "Verif.C147_refuted",
    "Verif.C147_cache",
    "Verif.C147_partial",
    "Verif.C147_one_account",
    "Verif.C147_none_made",
    "Verif.C147_segment",
    "Verif.C147_file",
    "Verif.C147_away",
    "Verif.C147_made_exact"
   ],
   "note": "Violated: CreateMmap makes its file with mode 0666, so without a mask everybody may write to it (C147_refuted; C147_cache and C147_file say exactly when and for whom; a shared segment only by its owner, C147_segment). Proved: everything that calls of the database make has mode 0644 less the mask (C147_made, and with its owner, its group and its directory C147_made_exact) and is neither changed nor removed by accounts that may not write (C147_kept, C147_partial), nor by accounts that may not search its directory, whatever the mode of the file (C147_away); nothing is made where one may not (C147_none_made); lists hold what was answered with success (C147_under, C147_added); with one account for all, the models without accounts are right (C147_one_account). Owners, groups, the three sets of permission bits, and directories that may not be searched are modelled. Assumed: nobody changes modes, no access control lists."
  },
  {
   "property": "C148",
   "status": "partial",
   "theorems": [
    "Verif.C148_readers",
    "Verif.C148_barred",
    "Verif.C148_owner",
    "Verif.C148_existing",
    "Verif.C148_refuted",
    "Verif.C148_home"
   ],
   "note": "Violated: drafts are made with mode 0644, so with the usual mask 022 every account reads them (C148_refuted). C148_readers says exactly which mask hides a new draft from others, C148_owner which hides it from the one who saved it; C148_existing: saving again changes neither owner nor mode, whatever the mask. C148_barred, C148_home: an account that may not search the directory of a draft is told that the draft is empty, not that it may not read it."
  },
  {
   "property": "C149",
   "status": "partial",
   "theorems": [
    "Verif.C149_never_forgotten",
    "Verif.C149_past_changes",
    "Verif.C149_home",
    "Verif.C149_undisturbed",
    "Verif.C149_register",
    "Verif.C149_words",
    "Verif.C149_partial",
    "Verif.C149_settled",
    "Verif.C149_sole",
    "Verif.C149_registered",
    "Verif.C149_fatal",
    "Verif.C149_torn",
    "Verif.C149_refuted",
    "Verif.C149_beyond",
    "Verif.C149_left_refuted",
    "Verif.C149_one_home_refuted",
    "Verif.C149_map_refuted",
    "Verif.C149_exact",
    "Verif.C149_left_exact",
    "Verif.C149_weak",
    "Verif.C149_weak_partial",
    "Verif.C149_weak_fresh",
    "Verif.C149_stale",
    "Verif.C149_stale_refuted"
   ],
   "note": "Violated: the connector's only field is a string, stored and loaded as two words without a lock (the map carries the remark TODO: Mutex). A path asked for beside an Open may be built from the address of one home and the length of another (C149_refuted), even with bytes of unrelated memory (C149_beyond); two Opens that overlap may leave such a home for good (C149_left_refuted); one call may use two homes (C149_one_home_refuted); a driver registered beside an Open may end the program (C149_map_refuted). Proved for all schedules: what is loaded is always the address of one and the length of one home named so far (C149_words), so homes of one length are never torn (C149_partial), and each of the four mixtures of two homes is read, and left, under some schedule (C149_exact, C149_left_exact); an Open that overlaps no other leaves its home (C149_sole), and while nobody opens every load gives it (C149_settled); once drivers are registered the map is never fatal (C149_registered); alone, a goroutine does what the registry of C30 says (C149_home, C149_undisturbed, C149_register). On a machine where a load may see an older store: words still come from homes named so far (C149_weak, C149_weak_partial), and with fresh loads nothing differs (C149_weak_fresh), but after an Open has returned another goroutine may still use a torn home (C149_stale, C149_stale_refuted). On a machine that shows stores late every home that a connector ever had may be loaded ever after (C149_never_forgotten)."
  },
  {
   "property": "C150",
   "status": "partial",
   "theorems": [
    "Verif.C150_silent",
    "Verif.C150_exact",
    "Verif.C150_lines",
    "Verif.C150_one_line",
    "Verif.C150_requests",
    "Verif.C150_lines_refuted",
    "Verif.C150_refuted",
    "Verif.C150_partial",
    "Verif.C150_call",
    "Verif.C150_users",
    "Verif.C150_token",
    "Verif.C150_quiet",
    "Verif.C150_named"
   ],
   "note": "Violated for calls: the paths are logged as they are, so a user, board or draft name with a newline and a time stamp in it writes a line that cannot be told from an entry (C150_refuted). Exact: stamped lines are genuine if and only if no later line of a message begins with a stamp (C150_exact), a call writes one line if and only if its names and the home have no newline (C150_call, C150_partial). For requests the stamped lines are always genuine, because what is logged are pieces between slashes and a stamp has slashes (C150_requests); but a newline in a path breaks the line (C150_lines_refuted, C150_one_line, C150_lines). The record printed by POST /v1/token is opaque here and assumed to have no newline. A redirected or refused request writes nothing (C150_silent). Message by message: C150_token, C150_users and C150_quiet say exactly what each request writes. C150_named: the path that a call writes is the one it names to the system first."
  },
  {
   "property": "C151",
   "status": "partial",
   "theorems": [
    "Verif.C151_readable",
    "Verif.C151_same",
    "Verif.C151_board",
    "Verif.C151_anyone",
    "Verif.C151_exact",
    "Verif.C151_refuted",
    "Verif.C151_partial"
   ],
   "note": "Violated: when more than one comment was found, the whole article is printed (bbs.go:693-695), and a search for anyone goes through the articles of all boards but ALLPOST. C151_exact says which texts are in the log after a whole search, C151_board up to where it fails; they do not depend on who is asked about (C151_anyone), can be read back in full (C151_readable), and answers are those of C33 (C151_same). C151_partial: nothing is written if no article has more than one comment."
  },
  {
   "property": "C152",
   "status": "partial",
   "theorems": [
    "Verif.C152_places",
    "Verif.C152_exact",
    "Verif.C152_partial",
    "Verif.C152_refuted",
    "Verif.C152_empty",
    "Verif.C152_inside"
   ],
   "note": "Refuted for 32-bit x86 Linux: the length taken is the upper half of the time of the last attachment (C152_exact), so until 2106 the buffer is empty and the first question to the cache panics (C152_empty). Proved for 64-bit Linux and Darwin (C152_partial). Memory beyond the buffer is written on 64-bit Linux only (C152_inside, see C90). Trusted: the kernels' structures; not covered: 32-bit ARM."
  },
  {
   "property": "C153",
   "status": "partial",
   "theorems": [
    "Verif.C153_models",
    "Verif.C153_foretold",
    "Verif.C153_exact",
    "Verif.C153_refuted",
    "Verif.C153_same",
    "Verif.C153_later",
    "Verif.C153_after",
    "Verif.C153_partial",
    "Verif.C153_without_map",
    "Verif.C153_alike"
   ],
   "note": "Refuted for NewArticleRecordWithMap: it seeds the generator with the clock, so the name depends on the clock and the taken names only (C153_foretold; C153_exact says which name). In one second the first name is the same on all boards and machines (C153_same), the second article on a board draws all numbers of the first again (C153_later), and names made afterwards without a map can be foretold too (C153_after). Without a map the name is that of the first free round (C153_without_map), and processes whose generators start alike, as before Go 1.20, try the same names (C153_alike). Proved for CreateBoardArticleFilename with a generator in an unknown state (C153_partial). The numbers of math/rand are any fixed function of seed and position."
  },
  {
   "property": "C154",
   "status": "partial",
   "theorems": [
    "Verif.C154_plain",
    "Verif.C154_one_database_partial",
    "Verif.C154_none",
    "Verif.C154_none_made",
    "Verif.C154_one_database_refuted",
    "Verif.C154_same_lead",
    "Verif.C154_shared",
    "Verif.C154_links_anywhere",
    "Verif.C154_create",
    "Verif.C154_remove",
    "Verif.C154_loop",
    "Verif.C154_limit_refuted"
   ],
   "note": "Refuted with a link inside the home directory: an article that is a link to a file elsewhere is written through (C154_one_database_refuted). Proved when no link lies in the home directory (C154_one_database_partial); then the run is that of a plain absolute name on a disk without links (C154_plain), so the theorems about disks without links carry over. Arguments do not go up, a removed draft has a plain name, and no directory has a draft's name. With links anywhere, names that lead to one place by equally many links share one database while they do (C154_shared), in particular if no draft is deleted (C154_links_anywhere); with different numbers an article behind 40 links shows the difference (C154_limit_refuted). Nothing is made through a link (C154_create), and removing a link leaves what it names (C154_remove); a link to itself leads nowhere (C154_loop). Without any link the model is the one used everywhere else (C154_none). No call makes a link (C154_none_made). Links elsewhere, e.g. on the way to the home directory, are free; 40 may be followed."
  },
  {
   "property": "C155",
   "status": "partial",
   "theorems": [
    "Verif.C155_clients_nul",
    "Verif.C155_added",
    "Verif.C155_whole_files",
    "Verif.C155_records",
    "Verif.C155_partial",
    "Verif.C155_exact",
    "Verif.C155_records_refuted",
    "Verif.C155_clients",
    "Verif.C155_lists"
   ],
   "note": "Refuted for files that are stored in parts: the length of a list can be stored without the bytes of a record, and the list then shows a record without a file name that nobody added (C155_records_refuted). Proved if every file is stored as a whole (C155_records). In parts: the old records are listed as they were, with at most as many further ones as were added (C155_partial); every further byte is the one that was added or NUL (C155_added), and for one call this is exactly what can be left (C155_exact). Several clients at once, whatever else they do: what was stored is there, and the old records are listed as they were (C155_clients, C155_lists). The calls change the list only by adding to it, and rewrite no directory. Clients' additions too may be found as NUL bytes (C155_clients_nul)."
  },
  {
   "property": "C156",
   "status": "partial",
   "theorems": [
    "Verif.C156_step",
    "Verif.C156_partial",
    "Verif.C156_running",
    "Verif.C156_refuted"
   ],
   "note": "Violated for a list that ends within a record: the tool adds without complaint, and the service lists a board without a name (C156_refuted). If the list holds whole records it is true for any number of runs (C156_partial, from C156_step); the service that runs keeps its list (C156_running). Tool and service may name the list differently, as long as both names lead to the same place; without symbolic links (for these see C154)."
  },
  {
   "property": "C157",
   "status": "partial",
   "theorems": [
    "Verif.C157_history",
    "Verif.C157_exact",
    "Verif.C157_count",
    "Verif.C157_partial",
    "Verif.C157_refuted"
   ],
   "note": "Violated: a board can be in the list of boards twice (C69), and then the article is found twice (C157_refuted). Exact: it is found once for every time its board is in the list, except as ALLPOST, behind the other articles of the board, and only for its author (C157_exact, C157_count); in a board that is listed once, once (C157_partial). After any history of calls a search finds exactly what the lists hold (C157_history). The boards that are searched are assumed to have a proper name and a directory."
  },
  {
   "property": "C158",
   "status": "partial",
   "theorems": [
    "Verif.C158_history",
    "Verif.C158_search",
    "Verif.C158_line",
    "Verif.C158_partial",
    "Verif.C158_many",
    "Verif.C158_refuted",
    "Verif.C158_exact"
   ],
   "note": "Violated if the last line of the article is not finished: the comment becomes part of that line (C158_refuted). With a finished line and no line of 64 KiB it is true (C158_partial), for any number of comments (C158_many); C158_line says what any line does: it adds one comment, none, or makes the list unreadable if it has an impossible time. Comments with a colon in the text are stored changed (C39). C158_exact says for every article when it holds: no line is too long, what is unfinished is no comment itself, and the joined line is read as the comment. C158_history and C158_search say the same of the search for a user's comments, after any history of calls."
  },
  {
   "property": "C159",
   "status": "partial",
   "theorems": [
    "Verif.C159_gone",
    "Verif.C159_again",
    "Verif.C159_refuted"
   ],
   "note": "Violated: removal touches only the list of boards, so the articles stay where they are and a board added later under the same name has them (C159_refuted, C159_again). The boards that remain are listed and searched as before (C159_gone)."
  },
  {
   "property": "C160",
   "status": "proved",
   "theorems": [
    "Verif.C160_tree"
   ],
   "note": "Proved for all clients, schedules and refusals of system calls; C147_away and C148_home build on it. Directories are never removed by calls of the database while something is in them, and files are made only in directories that are there."
  },
  {
   "property": "C161",
   "status": "proved",
   "theorems": [
    "Verif.C161_silent"
   ],
   "note": "Proved for all files, contents, calls and schedules, of any number of clients that may not read the file or not search its directory. What may be told is that the file is there."
  },
  {
   "property": "C162",
   "status": "partial",
   "theorems": [
    "Verif.C162_same",
    "Verif.C162_path",
    "Verif.C162_silent",
    "Verif.C162_exact",
    "Verif.C162_partial",
    "Verif.C162_refuted",
    "Verif.C162_crash",
    "Verif.C162_one"
   ],
   "note": "False both ways (C162_refuted). Posting a record, creating and appending an article and the three draft calls write nothing when they fail, and the list of a board without articles is written as an error though the call succeeds with no articles. C162_exact says exactly which reasons are in the log; C162_partial is the claim for the calls that report; C162_silent the lines of those that do not; C162_path, C162_one and C162_crash what else may be there."
  },
  {
   "property": "C163",
   "status": "proved",
   "theorems": [
    "Verif.C163_lines",
    "Verif.C163_listens",
    "Verif.C163_starts_say_no_more",
    "Verif.C163_words"
   ],
   "note": "The elements of the printed slices are pointers, so fmt prints addresses; the model keeps only how many there are. C163_lines gives the lines, C163_words says what may be in them, C163_listens when the service comes to listen."
  },
  {
   "property": "C164",
   "status": "partial",
   "theorems": [
    "Verif.C164_same",
    "Verif.C164_exact",
    "Verif.C164_reported_partial",
    "Verif.C164_found",
    "Verif.C164_texts",
    "Verif.C164_paths",
    "Verif.C164_refuted"
   ],
   "note": "Every failure of a search is written, but the converse fails: the driver writes that there is no file when a board has no list of articles, and the search goes on. C164_exact says exactly which reasons are written: that of the failure, and that there is no file when a board without a list was met. The lines about what was found, the texts and the paths are proved as stated."
  },
  {
   "property": "C165",
   "status": "proved",
   "theorems": [
    "Verif.C165_articles",
    "Verif.C165_comments"
   ],
   "note": ""
  },
  {
   "property": "C166",
   "status": "partial",
   "theorems": [
    "Verif.C166_repeated",
    "Verif.C166_failed",
    "Verif.C166_exact",
    "Verif.C166_safe_to_repeat_refuted",
    "Verif.C166_safe_to_repeat_partial",
    "Verif.C166_contents",
    "Verif.C166_any_number_partial"
   ],
   "note": "False of the code: adding a board, a record or an article, and appending a text, do it twice (C166_safe_to_repeat_refuted). Exactly those calls are unsafe, when both runs succeed (C166_exact); what the second run does is given for every call (C166_repeated); a failed call fails again alike (C166_failed). The other calls may be made any number of times (C166_any_number_partial). Missing: nothing but the refuted cases."
  },
  {
   "property": "C167",
   "status": "partial",
   "theorems": [
    "Verif.C167_only_adds",
    "Verif.C167_exact",
    "Verif.C167_safe_to_resend_partial",
    "Verif.C167_safe_to_resend_refuted"
   ],
   "note": "False of the code when another writes over the article in between (C167_safe_to_resend_refuted). It holds for all calls in between that neither write over a text nor delete, by any names (C167_safe_to_resend_partial); writing changes nothing exactly when the article begins with the text (C167_exact)."
  },
  {
   "property": "C168",
   "status": "partial",
   "theorems": [
    "Verif.C168_moments",
    "Verif.C168_readers_agree",
    "Verif.C168_board_moments",
    "Verif.C168_no_directories",
    "Verif.C168_stays_read_partial",
    "Verif.C168_texts",
    "Verif.C168_stays_read_refuted",
    "Verif.C168_lists",
    "Verif.C168_later",
    "Verif.C168_missing_refuted"
   ],
   "note": "False of the code for a list that ends within a record: its last record changes when the next is added (C168_stays_read_refuted). Texts and drafts stay on every disk (C168_texts); of a list all records but the last stay on every disk that has it (C168_lists); all of them when its records are whole (C168_stays_read_partial). A list of articles that is not there reads as empty and can be read later, unless a file has come to be where its directory would be (C168_later), which happens (C168_missing_refuted). So of two listings of a board's articles in one history the later begins with the earlier, but perhaps for its last record (C168_moments, C168_readers_agree); the list of boards can be read at every later moment as well (C168_board_moments)."
  },
  {
   "property": "C169",
   "status": "partial",
   "theorems": [
    "Verif.C169_trailing",
    "Verif.C169_none_made",
    "Verif.C169_favourites_stay_partial",
    "Verif.C169_favourites_stay_refuted"
   ],
   "note": "False of the code when the list of boards ends within a record: a favourite that points at that record shows another name once a board is added (C169_favourites_stay_refuted). It holds on every disk whose list of boards has whole records (C169_favourites_stay_partial); a file of favourites that was not there is not made (C169_none_made), and bytes behind the file change nothing (C169_trailing)."
  },
  {
   "property": "C170",
   "status": "partial",
   "theorems": [
    "Verif.C170_found_again_partial",
    "Verif.C170_succeeds",
    "Verif.C170_comments_partial",
    "Verif.C170_board_comments_partial",
    "Verif.C170_found_again_refuted",
    "Verif.C170_comments_refuted",
    "Verif.C170_furnished_partial",
    "Verif.C170_comments_go_on_refuted"
   ],
   "note": "False of the code: a board without a name, once added, makes every search panic (C170_found_again_refuted), a comment without a newline is changed by the next one (C170_comments_refuted), and a record of an article that has no text makes the search for comments fail (C170_comments_go_on_refuted). With lists of whole records, and for comments texts that end with a newline, a later search that succeeds finds everything found before in the same order (C170_found_again_partial, C170_comments_partial, C170_board_comments_partial); it succeeds exactly when the lists of all boards can be read (C170_succeeds), and so whenever every board on the list had its directory (C170_furnished_partial)."
  }
 ]
}