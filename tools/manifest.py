#!/usr/bin/env python3
"""Write MANIFEST.json. The status and theorems of each property are listed here."""
import json, os

P = "Url.Props."
claims = [
    ("C01", "proved", ["C01_accepts_iff", "C01_rejects"],
     "The language is UriReference lib, whose deviations from RFC 3986 are the fields of Spec.lib."),
    ("C02", "proved", ["C02_lossless"], ""),
    ("C03", "proved", ["C03_components", "C03_unique"], ""),
    ("C04", "partial", ["C04_false", "C04_partial", "C04_exact"],
     "False as stated: the first character of an absolute path is not validated. C04_exact says for which accepted strings it holds."),
    ("C05", "partial", ["C05_false", "C05_partial", "C05_exact", "C05_components"],
     "False as stated: digits in schemes, lower-case hex, IPvFuture, '/?'. C05_exact and C05_components say exactly for which "
     "URI-references of the RFC it holds."),
    ("C06", "proved", ["C06_host_type"], ""),
    ("C07", "partial", ["C07_false", "C07_sound_partial", "C07_complete_partial", "C07_sound_exact", "C07_complete_exact"],
     "False as stated. The exact language is proved; C07_sound_exact says which accepted literals are addresses of the RFC, C07_complete_exact which addresses of the RFC are accepted."),
    ("C08", "proved", ["C08_total", "C08_parts"], ""),
    ("C09", "proved", ["C09_decode_encode", "C09_decoded_encode", "C09_encode_injective"], ""),
    ("C10", "proved", ["C10_encode", "C10_encode_id"], ""),
    ("C11", "proved", ["C11_encoded_size", "C11_decoded_size", "C29_port_string"], ""),
    ("C12", "proved", ["C12_check_iff", "C12_parse"], ""),
    ("C13", "proved", ["C13_key_equal"], ""),
    ("C14", "partial", ["C14_decoding", "C14_container", "C14_segments_partial", "C14_reach_partial", "C14_exact", "C14_worked", "C14_moved_false", "C14_false"],
     "False for the segment of '/%'. Holds for all components, and after any calls for all segments that do not start with a '%' on its own; C14_exact says which segments decode well, which wrongly and which are undefined."),
    ("C15", "proved", ["C15_set_user", "C15_set_password", "C15_set_host", "C15_set_query", "C15_set_fragment", "C15_worked", "C15_worked_host", "C15_worked_user"],
     "The first five for every history of calls that are not Defective; C15_worked* for all histories of calls and edits, the user only if its bytes were written."),
    ("C16", "proved", ["C16_set_scheme", "C16_set_encoded_user", "C16_set_encoded_password", "C16_set_encoded_host", "C16_set_port",
     "C16_set_encoded_path", "C16_set_encoded_query", "C16_set_encoded_fragment", "C16_set_query_part", "C16_set_fragment_part",
     "C16_set_encoded_url", "C16_worked", "C16_worked_user"], "C16_worked* are for all histories of calls and edits, the user only if its bytes were written."),
    ("C17", "partial", ["C17_frame_partial", "C17_authority_partial", "C17_used_partial", "C17_used", "C17_used_false"],
     "The first two exclude the Defective calls; C17_used includes all calls and histories and says exactly when a component that is not set changes."),
    ("C18", "proved", ["C18_strong", "C18_allocation", "C18_observed"], "All calls, all states."),
    ("C19", "partial", ["C19_returns", "C19_set_scheme", "C19_set_encoded_user", "C19_set_encoded_password_partial",
     "C19_set_encoded_host", "C19_set_port", "C19_set_encoded_path", "C19_set_encoded_query", "C19_set_encoded_fragment",
     "C19_set_query_part", "C19_set_fragment_part", "C19_set_encoded_url", "C19_set_encoded_userinfo",
     "C19_set_userinfo_part", "C19_set_password_part", "C19_set_port_part", "C19_plain", "C19_password_false", "C19_path_false",
     "C19_rfc_false"], "The exact set of accepted arguments; it differs from the documented grammar as the _false theorems say."),
    ("C20", "partial", ["C20_scheme", "C20_user", "C20_password", "C20_userinfo", "C20_host", "C20_port", "C20_authority",
     "C20_origin", "C20_path", "C20_query", "C20_encoded_query", "C20_fragment", "C20_encoded_fragment", "C20_url", "C20_user_false"],
     "False for set_user: clearing the user of an authority with nothing else leaves the //."),
    ("C21", "partial", ["C21_partial", "C21_kept_partial", "C21_set_encoded_url", "C21_set_encoded_path", "C21_authority_false",
     "C21_rootless_false", "C21_scheme_false", "C21_slash_false", "C21_unchecked_false", "C21_erase_false"],
     "False: setters do not check that the path still fits. Reparsing is characterised exactly, and C69 says of every call and edit whether it is kept."),
    ("C22", "partial", ["C22_set_encoded_url_partial", "C22_kept_partial", "C22_edit_partial", "C22_history", "C22_exact", "C22_calls", "C22_call_kept", "C22_edit_kept",
     "C22_onward", "C22_given", "C22_false"],
     "False for a buffer first allocated by a setter other than set_encoded_url. C22_calls says for every call after any history when it holds afterwards; C22_given that it holds for ever once set_encoded_url gave the url a text."),
    ("C23", "partial", ["C23_calls_partial", "C23_accessors", "C23_release", "C23_release_accessors", "C23_set_user_false",
     "C23_clear_user_false", "C23_uninitialised_false", "C23_exposes", "C23_readable", "C23_written", "C23_debug_exact", "C23_debug_uninitialised_false"],
     "False for set_user of nothing (debug), and room made in front of a text of one character exposes uninitialised bytes. After any calls C23_debug_exact says which calls fail with assertions, and C23_exposes which may leave such bytes."),
    ("C24", "partial", ["C24_size", "C24_size_used", "C24_monotone", "C24_monotone_edit", "C24_growth", "C24_growth_colon", "C24_colon_false",
     "C24_limit_false", "C24_size_worked", "C24_growth_worked", "C24_growth_edit", "C24_replace_false"],
     "False for set_password_part(\":\"), which may allocate for a result that fits, and from half of the allocator's limit on. For edits of segments it is in C24_growth_edit and C24_replace_false."),
    ("C25", "partial", ["C25_fields_partial", "C25_authority_partial", "C25_authority_exact", "C25_worked", "C25_false", "C25_worked_false"],
     "False when one call clears the user or password and the other the host or port, and nothing else is in the authority (C25_authority_exact is an equivalence); holds otherwise, for calls that are not Defective. C25_worked: for different fields it holds after any calls and edits, unless the authority has one character."),
    ("C26", "partial", ["C26_fields_partial", "C26_authority_partial", "C26_authority_exact", "C26_url_partial", "C26_worked", "C26_url_worked", "C26_false"],
     "False exactly when the second call clears the user or password which the first one added to a url without an authority (C26_authority_exact); for calls that are not Defective. C26_worked and C26_url_worked include all calls and histories."),
    ("C27", "proved", ["C27_build"], ""),
    ("C28", "proved", ["C28_normalize", "C28_idempotent", "C28_worked"], "C28_worked is for all histories."),
    ("C29", "proved", ["C29_port_string", "C29_set_port_number", "C29_accepts"], ""),
    ("C30", "partial", ["C30_partial", "C30_accepts", "C30_false", "C30_part", "C30_witness"],
     "False for every non-empty userinfo; what the call does instead is characterised."),
    ("C31", "partial", ["C31_partial", "C31_accepts", "C31_host_type"], "False for the host type, which stays as it was (C31_host_type)."),
    ("C32", "partial", ["C32_partial", "C32_effect_partial", "C32_exact", "C32_worked", "C32_origins", "C32_false"],
     "False: anything is accepted that starts like a URL. C32_exact is an equivalence: which arguments are rejected; C32_worked says what each accepted one does after any history."),
    ("C33", "partial", ["C33_set_encoded_url_partial", "C33_kept_partial", "C33_counts_false", "C33_host_type_false", "C33_host_false", "C33_exact", "C33_cached"],
     "False: most setters do not update the cached values. C33_exact says for every call when it holds afterwards; C33_cached says what they are after every call, whatever the state."),
    ("C34", "proved", ["C34_segments", "C34_inStep", "C34_stale", "C34_worked", "C34_gone", "C34_stale_false"],
     "Proved for parsed urls and all urls in step with their text; C34_worked and C34_gone say what the loop does after any calls and edits, also with stale counts."),
    ("C35", "partial", ["C35_partial", "C35_false", "C35_const_partial", "C35_const_false", "C35_worked", "C35_worked_false", "C35_gone"],
     "False for every view or const url with a query and a non-empty path: the loop never ends. Holds for all others."),
    ("C36", "proved", ["C36_bidirectional", "C36_end", "C36_const", "C36_worked"], ""),
    ("C37", "partial", ["C37_partial", "C37_size_partial", "C37_count", "C37_position_partial", "C37_tidy_make", "C37_tidy_partial", "C37_outcome_partial",
     "C37_invalid", "C37_throw", "C37_front_false", "C37_front_case_false", "C37_end_false", "C37_end_case_false", "C37_rootless_false",
     "C37_empty_false"],
     "False in front of paths without a leading slash, at the end of paths without a query (assertion) and for default constructed urls."),
    ("C38", "partial", ["C38_pairs_partial", "C38_partial", "C38_none", "C38_size", "C38_size_url", "C38_irregular_false", "C38_fragment_false",
     "C38_exact", "C38_zero", "C38_gone", "C38_irregular_case_false", "C38_fragment_case_false"],
     "False if a piece other than the last has no '=', and if the last has none and a fragment follows; C38_exact is an equivalence. All are for views and for urls after any calls and edits; C38_zero and C38_gone are about stale counts."),
    ("C39", "partial", ["C39_hit_partial", "C39_miss_partial", "C39_count_partial", "C39_hit", "C39_lost",
     "C39_asserted", "C39_fragment_false"],
     "Proved whenever the loop over the parameters ends, and for every url for keys found before its end (C39_hit). If the last parameter has no '=' and a fragment follows, other lookups fail an assertion (C39_lost) or, without assertions, read the fragment (C39_fragment_false); with assertions no answer is wrong (C39_asserted)."),
    ("C40", "partial", ["C40_partial", "C40_exact", "C40_first_false", "C40_amp_false", "C40_case_false"],
     "False for the first parameter and for keys that contain '&'; C40_exact is an equivalence."),
    ("C41", "partial", ["C41_false", "C41_partial", "C41_container_false", "C41_container_partial", "C41_exact", "C41_view_exact"],
     "False for an empty authority, and only then: C41_exact and C41_view_exact are equivalences."),
    ("C42", "partial", ["C42_partial", "C42_unsigned", "C42_to_string", "C42_is_special_partial", "C42_exact", "C42_false"],
     "Undefined for bytes from 128 on where char is signed: tolower is called with a negative value. Proved for all strings where char is unsigned; C42_exact says for which strings it is undefined otherwise, and that it holds for the others."),
    ("C43", "partial", ["C43_partial", "C43_char", "C43_request_partial", "C43_exact", "C43_wrap", "C43_false", "C43_case_false", "C43_size_false"],
     "False if aligning leads beyond the end of the buffer. Proved for all sequences whose alignments divide the end address, in particular for char; C43_exact says which requests are granted."),
    ("C44", "partial", ["C44_partial", "C44_false", "C44_case_false"], "False: the assignment does nothing."),
    ("C45", "proved", ["C45_accessors", "C45_container"], ""),
    ("C46", "partial", ["C46_password_part_partial", "C46_password_part_false", "C46_set_password_part_partial",
     "C46_set_password_part_false", "C46_colon_false"], "False: assertion fails; a lone colon without an authority corrupts the text."),
    ("C47", "partial", ["C47_partial", "C47_false", "C47_colon_false"], "False for a lone colon without an authority."),
    ("C48", "proved", ["C48_condition", "C48_messages", "C48_parser"], ""),
    ("C49", "proved", ["C49_calls", "C49_edits", "C49_iterators", "C49_accessors"], ""),
    ("C50", "partial", ["C50_partial", "C50_capacity_false", "C50_behind_false", "C50_self_false", "C50_edit_partial",
     "C50_edit_capacity_false", "C50_edit_self_false", "C50_edit_behind_false",
     "C50_worked_partial", "C50_worked_edit_partial", "C50_worked_edit_false"],
     "False if the call enlarges the capacity, and for parts of the url that are not in front of what is set."),
    ("C51", "proved", ["C51_exact", "C51_wrong", "C51_fault"], ""),
    ("C52", "partial", ["C52_calls_partial", "C52_edits_partial", "C52_histories_partial", "C52_used_partial", "C52_worked_calls_partial",
     "C52_worked_edits_partial", "C52_worked_partial", "C52_wrap_false", "C52_zero_false"],
     "False for arguments with about a third as many characters to escape as a size can count. Proved if three times the argument, 16 more and the largest allocation together are a size."),
    ("C53", "proved", ["C53_owned", "C53_destroyed", "C53_constructor", "C53_call", "C53_edit", "C53_worked"], ""),
    ("C54", "partial", ["C54_accessors", "C54_calls", "C54_sequences", "C54_edits_partial", "C54_edits_invalid", "C54_calls_worked",
     "C54_rejects_worked", "C54_edits_worked", "C54_histories", "C54_accessors_worked", "C54_edit_false", "C54_text_false", "C54_unwritten_false"],
     "False for edits in a build with assertions, which read the byte after the text; edits that return for both agree. Calls and accessors are proved. After any calls and edits (_worked, C54_histories) with one exception, C54_unwritten_false."),
    ("C55", "partial", ["C55_segments", "C55_later", "C55_before", "C55_behind", "C55_params_partial", "C55_scheme_false", "C55_behind_false", "C55_params_false"],
     "False whenever the text in front of the element changes its length; proved to hold exactly when it does not. For parameters the loops before and after the call have to end."),
    ("C56", "partial", ["C56_buffer", "C56_buffer_edit", "C56_fits", "C56_stays", "C56_strings", "C56_segments_false", "C56_params_false", "C56_strings_false", "C56_case_false",
     "C56_worked", "C56_worked_edit", "C56_worked_fits", "C56_worked_fits_edit", "C56_worked_strings", "C56_worked_strings_edit",
     "C56_worked_lost_false", "C56_worked_segments_false", "C56_worked_params_false"],
     "False exactly if the new text does not fit in the capacity: then the buffer is replaced and the old one is read. Proved if it fits."),
    ("C57", "partial", ["C57_effect", "C57_release", "C57_exact", "C57_debug", "C57_throw", "C57_calls", "C57_accessors", "C57_kept_partial", "C57_next", "C57_deref", "C57_prev",
     "C57_begin", "C57_nth", "C57_positions", "C57_reach", "C57_walk", "C57_given", "C57_release_false", "C57_outside", "C57_outside_machine", "C57_returns", "C57_free", "C57_outside_false", "C57_begin_false"],
     "The effect is proved for all iterators into the path. False: inserting at the end of a text that no null character follows uses an indeterminate byte, as does begin() of an empty path that is counted as one. C57_exact and C57_debug are equivalences: exactly which edits fault, without and with assertions."),
    ("C58", "proved", ["C58_default", "C58_walk", "C58_param_walk", "C58_find", "C58_count", "C58_mixed", "C58_param_mixed", "C58_self",
     "C58_debug", "C58_release", "C58_effect", "C58_null", "C58_element"], ""),
    ("C59", "partial", ["C59_rfc", "C59_unique", "C59_partial", "C59_false"],
     "False as stated for paths with '?' or '#' in them (see C04); C59_partial is an equivalence."),
    ("C60", "partial", ["C60_once", "C60_lives", "C60_inside", "C60_apart", "C60_call", "C60_throw", "C60_fault", "C60_taken", "C60_enough",
     "C60_capacity", "C60_small", "C60_top", "C60_null", "C60_reuse_false", "C60_copy_false"],
     "False: the memory of destroyed urls is never used again, a copy of a pool hands out the memory of the original, and with a default constructed allocator every call that needs a buffer is undefined. The rest is proved."),
    ("C61", "partial", ["C61_call", "C61_edit", "C61_erase", "C61_normalize", "C61_kinds", "C61_clear", "C61_clear_history", "C61_colon_false", "C61_clear_false"],
     "Proved, with three exceptions that are part of C61_call and C61_edit: set_encoded_url does not compare with the largest size, set_password_part(\":\") makes room for two characters more than its result has, and a replacement takes the size of the text from the storage. C61_clear has a hypothesis about the slashes before the user, which holds after any history; C61_clear_false shows that it is needed after a Defective call."),
    ("C62", "partial", ["C62_own", "C62_rejected", "C62_same", "C62_false"],
     "Proved with the exceptions spelled out (Forgets, Unfit) and for calls that are not Defective; C62_false shows an instance of each exception, and that set_encoded_userinfo and set_encoded_origin, which are Defective, do change the url or reject its own text."),
    ("C63", "partial", ["C63_text", "C63_view", "C63_printable", "C63_delimiters", "C63_delimiters_view", "C63_worked", "C63_worked_delimiters", "C63_any_false", "C63_moved_false", "C63_userinfo_false"],
     "Proved but for one byte of the path: behind the first slash of a path without authority any byte but a slash is accepted (C63_any_false), and edits and set_encoded_host can move it along the path and behind an authority (C63_moved_false). C63_worked says which parts keep to their grammar after any calls and edits at all; the user information is not one of them (C63_userinfo_false)."),
    ("C64", "partial", ["C64_combine", "C64_fragment", "C64_query", "C64_scheme", "C64_unscheme", "C64_cut", "C64_fragment_false"],
     "Proved, as equivalences, but for texts that end in a lone slash behind at most a scheme: the slash takes the `#` or `?` after it as the first character of a segment (C64_fragment_false)."),
    ("C65", "partial", ["C65_rejected", "C65_view", "C65_reads", "C65_view_reads", "C65_false"],
     "Proved, as equivalences: which copies are rejected (Unfit) and which are not read back (a userinfo part `@`); for calls that are not Defective."),
    ("C66", "proved", ["C66_same", "C66_linear", "C66_slope", "C66_factor"],
     "Proved for a copy of the parser that counts the characters it reads (Model/Cost.lean); C66_same shows that the copy computes what the parser computes."),
    ("C67", "proved", ["C67_count", "C67_total", "C67_copied", "C67_within", "C67_bounded"],
     "C67_count, C67_total and C67_copied hold after any calls and edits, returning or throwing; C67_within and C67_bounded, which compare with the longest text, after any calls (a replacement of a segment may make room for more than its result has, see C24_replace_false)."),
    ("C68", "proved", ["C68_same", "C68_same_segments", "C68_all", "C68_view", "C68_query", "C68_factor", "C68_segments", "C68_segments_view"],
     "Proved for copies of the loops that count the characters they read (Model/CostWalk.lean); C68_same and C68_same_segments show that the copies compute what the loops compute. The loop over the segments of a view with a query does not return (C35_false), so there is nothing to bound."),
    ("C69", "proved", ["C69_calls", "C69_edits", "C69_history"],
     "An equivalence for each call that is not Defective and each edit that is Editable, stated in terms of what the accessors return before the call; C69_history: a url on which none of the listed calls and edits is made has a text that parses to its components at all times."),
    ("C70", "proved", ["C70_field", "C70_url", "C70_part"],
     "Equivalences: Unfit (C62) is when the value that was read is rejected, Forgets (C62) when the getter does not tell present and empty from absent. The last conjunct of C70_part is the url that keeps the slashes."),
    ("C71", "proved", ["C71_texts", "C71_rejects", "C71_determined", "C71_alike", "C71_accepts"],
     "Op.Takes and Op.Turns (Spec/Texts) describe what each call does to the texts, defects included. For set_encoded_origin Op.Takes is only necessary and Op.Turns does not determine the texts; C71_accepts and C32_worked do."),
    ("C72", "proved", ["C72_counts", "C72_counts_edit", "C72_calls", "C72_stores", "C72_password_part", "C72_edits", "C72_replace_false", "C72_least", "C72_least_edit", "C72_copies"],
     "Proved for a copy of the calls that counts the bytes it writes (Model/Counted.lean); C72_counts and C72_counts_edit show that the copy does what the calls do, C72_least that it counts at least what changes. The bytes that are read are not counted."),
    ("C73", "proved", ["C73_calls", "C73_edits", "C73_history", "C73_append", "C73_least", "C73_prepend"],
     "Proved for the counting copy of the calls of C72. C73_append and C73_prepend are about insertions that return."),
    ("C74", "partial", ["C74_loop_partial", "C74_erase_partial", "C74_last_false", "C74_false"],
     "Proved for paths that are empty or start with a slash, or whose first segment is kept, in a build with assertions if there is a query or the last segment is kept; the state is reachable and in order (Tidy) and an int can count the segments. False otherwise: the loop never returns if the last segment is not kept in a build with assertions without a query (C74_last_false), and (C74_false) the count is wrong after the first segment of a path without a leading slash went."),
    ("C75", "partial", ["C75_insert_partial", "C75_assign_partial", "C75_false", "C75_reread_false"],
     "Proved for the states of C74_loop_partial, with the inserted segments counted, for paths that are empty or start with a slash or a position behind the first segment, in a build with assertions if there is a query or the position is not the end. False otherwise (C75_false): an assertion fails at the end of a path without a query, and what is put in front of a path without a leading slash is merged with its first segment. Nothing is claimed about parsing the text again, where an empty first segment without an authority is read as the start of one (C75_reread_false)."),
]
out = {"claims": [{"property": i, "status": s, "theorems": [P + t for t in ts], "note": n}
                  for i, s, ts, n in claims]}
path = os.path.join(os.path.dirname(os.path.abspath(__file__)), "..", "MANIFEST.json")
with open(path, "w") as f:
    json.dump(out, f, indent=1)
    f.write("\n")
