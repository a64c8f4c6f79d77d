{
 "claims": [
  {
   "property": "C01",
   "status": "proved",
   "theorems": [
    "Url.Props.C01_accepts_iff",
    "Url.Props.C01_rejects"
   ],
   "note": "The language is UriReference lib, whose deviations from RFC 3986 are the fields of Spec.lib."
  },
  {
   "property": "C02",
   "status": "proved",
   "theorems": [
    "Url.Props.C02_lossless"
   ],
   "note": ""
  },
  {
   "property": "C03",
   "status": "proved",
   "theorems": [
    "Url.Props.C03_components",
    "Url.Props.C03_unique"
   ],
   "note": ""
  },
  {
   "property": "C04",
   "status": "partial",
   "theorems": [
    "Url.Props.C04_false",
    "Url.Props.C04_partial",
    "Url.Props.C04_exact"
   ],
   "note": "False as stated: the first character of an absolute path is not validated. C04_exact says for which accepted strings it holds."
  },
  {
   "property": "C05",
   "status": "partial",
   "theorems": [
    "Url.Props.C05_false",
    "Url.Props.C05_partial",
    "Url.Props.C05_exact",
    "Url.Props.C05_components"
   ],
   "note": "False as stated: digits in schemes, lower-case hex, IPvFuture, '/?'. C05_exact and C05_components say exactly for which URI-references of the RFC it holds."
  },
  {
   "property": "C06",
   "status": "proved",
   "theorems": [
    "Url.Props.C06_host_type"
   ],
   "note": ""
  },
  {
   "property": "C07",
   "status": "partial",
   "theorems": [
    "Url.Props.C07_false",
    "Url.Props.C07_sound_partial",
    "Url.Props.C07_complete_partial",
    "Url.Props.C07_sound_exact",
    "Url.Props.C07_complete_exact"
   ],
   "note": "False as stated. The exact language is proved; C07_sound_exact says which accepted literals are addresses of the RFC, C07_complete_exact which addresses of the RFC are accepted."
  },
  {
   "property": "C08",
   "status": "proved",
   "theorems": [
    "Url.Props.C08_total",
    "Url.Props.C08_parts"
   ],
   "note": ""
  },
  {
   "property": "C09",
   "status": "proved",
   "theorems": [
    "Url.Props.C09_decode_encode",
    "Url.Props.C09_decoded_encode",
    "Url.Props.C09_encode_injective"
   ],
   "note": ""
  },
  {
   "property": "C10",
   "status": "proved",
   "theorems": [
    "Url.Props.C10_encode",
    "Url.Props.C10_encode_id"
   ],
   "note": ""
  },
  {
   "property": "C11",
   "status": "proved",
   "theorems": [
    "Url.Props.C11_encoded_size",
    "Url.Props.C11_decoded_size",
    "Url.Props.C29_port_string"
   ],
   "note": ""
  },
  {
   "property": "C12",
   "status": "proved",
   "theorems": [
    "Url.Props.C12_check_iff",
    "Url.Props.C12_parse"
   ],
   "note": ""
  },
  {
   "property": "C13",
   "status": "proved",
   "theorems": [
    "Url.Props.C13_key_equal"
   ],
   "note": ""
  },
  {
   "property": "C14",
   "status": "partial",
   "theorems": [
    "Url.Props.C14_decoding",
    "Url.Props.C14_container",
    "Url.Props.C14_segments_partial",
    "Url.Props.C14_reach_partial",
    "Url.Props.C14_exact",
    "Url.Props.C14_worked",
    "Url.Props.C14_moved_false",
    "Url.Props.C14_false"
   ],
   "note": "False for the segment of '/%'. Holds for all components, and after any calls for all segments that do not start with a '%' on its own; C14_exact says which segments decode well, which wrongly and which are undefined."
  },
  {
   "property": "C15",
   "status": "proved",
   "theorems": [
    "Url.Props.C15_set_user",
    "Url.Props.C15_set_password",
    "Url.Props.C15_set_host",
    "Url.Props.C15_set_query",
    "Url.Props.C15_set_fragment",
    "Url.Props.C15_worked",
    "Url.Props.C15_worked_host",
    "Url.Props.C15_worked_user"
   ],
   "note": "The first five for every history of calls that are not Defective; C15_worked* for all histories of calls and edits, the user only if its bytes were written."
  },
  {
   "property": "C16",
   "status": "proved",
   "theorems": [
    "Url.Props.C16_set_scheme",
    "Url.Props.C16_set_encoded_user",
    "Url.Props.C16_set_encoded_password",
    "Url.Props.C16_set_encoded_host",
    "Url.Props.C16_set_port",
    "Url.Props.C16_set_encoded_path",
    "Url.Props.C16_set_encoded_query",
    "Url.Props.C16_set_encoded_fragment",
    "Url.Props.C16_set_query_part",
    "Url.Props.C16_set_fragment_part",
    "Url.Props.C16_set_encoded_url",
    "Url.Props.C16_worked",
    "Url.Props.C16_worked_user"
   ],
   "note": "C16_worked* are for all histories of calls and edits, the user only if its bytes were written."
  },
  {
   "property": "C17",
   "status": "partial",
   "theorems": [
    "Url.Props.C17_frame_partial",
    "Url.Props.C17_authority_partial",
    "Url.Props.C17_used_partial",
    "Url.Props.C17_used",
    "Url.Props.C17_used_false"
   ],
   "note": "The first two exclude the Defective calls; C17_used includes all calls and histories and says exactly when a component that is not set changes."
  },
  {
   "property": "C18",
   "status": "proved",
   "theorems": [
    "Url.Props.C18_strong",
    "Url.Props.C18_allocation",
    "Url.Props.C18_observed"
   ],
   "note": "All calls, all states."
  },
  {
   "property": "C19",
   "status": "partial",
   "theorems": [
    "Url.Props.C19_returns",
    "Url.Props.C19_set_scheme",
    "Url.Props.C19_set_encoded_user",
    "Url.Props.C19_set_encoded_password_partial",
    "Url.Props.C19_set_encoded_host",
    "Url.Props.C19_set_port",
    "Url.Props.C19_set_encoded_path",
    "Url.Props.C19_set_encoded_query",
    "Url.Props.C19_set_encoded_fragment",
    "Url.Props.C19_set_query_part",
    "Url.Props.C19_set_fragment_part",
    "Url.Props.C19_set_encoded_url",
    "Url.Props.C19_set_encoded_userinfo",
    "Url.Props.C19_set_userinfo_part",
    "Url.Props.C19_set_password_part",
    "Url.Props.C19_set_port_part",
    "Url.Props.C19_plain",
    "Url.Props.C19_password_false",
    "Url.Props.C19_path_false",
    "Url.Props.C19_rfc_false"
   ],
   "note": "The exact set of accepted arguments; it differs from the documented grammar as the _false theorems say."
  },
  {
   "property": "C20",
   "status": "partial",
   "theorems": [
    "Url.Props.C20_scheme",
    "Url.Props.C20_user",
    "Url.Props.C20_password",
    "Url.Props.C20_userinfo",
    "Url.Props.C20_host",
    "Url.Props.C20_port",
    "Url.Props.C20_authority",
    "Url.Props.C20_origin",
    "Url.Props.C20_path",
    "Url.Props.C20_query",
    "Url.Props.C20_encoded_query",
    "Url.Props.C20_fragment",
    "Url.Props.C20_encoded_fragment",
    "Url.Props.C20_url",
    "Url.Props.C20_user_false"
   ],
   "note": "False for set_user: clearing the user of an authority with nothing else leaves the //."
  },
  {
   "property": "C21",
   "status": "partial",
   "theorems": [
    "Url.Props.C21_partial",
    "Url.Props.C21_kept_partial",
    "Url.Props.C21_set_encoded_url",
    "Url.Props.C21_set_encoded_path",
    "Url.Props.C21_authority_false",
    "Url.Props.C21_rootless_false",
    "Url.Props.C21_scheme_false",
    "Url.Props.C21_slash_false",
    "Url.Props.C21_unchecked_false",
    "Url.Props.C21_erase_false"
   ],
   "note": "False: setters do not check that the path still fits. Reparsing is characterised exactly, and C69 says of every call and edit whether it is kept."
  },
  {
   "property": "C22",
   "status": "partial",
   "theorems": [
    "Url.Props.C22_set_encoded_url_partial",
    "Url.Props.C22_kept_partial",
    "Url.Props.C22_edit_partial",
    "Url.Props.C22_history",
    "Url.Props.C22_exact",
    "Url.Props.C22_calls",
    "Url.Props.C22_call_kept",
    "Url.Props.C22_edit_kept",
    "Url.Props.C22_onward",
    "Url.Props.C22_given",
    "Url.Props.C22_false"
   ],
   "note": "False for a buffer first allocated by a setter other than set_encoded_url. C22_calls says for every call after any history when it holds afterwards; C22_given that it holds for ever once set_encoded_url gave the url a text."
  },
  {
   "property": "C23",
   "status": "partial",
   "theorems": [
    "Url.Props.C23_calls_partial",
    "Url.Props.C23_accessors",
    "Url.Props.C23_release",
    "Url.Props.C23_release_accessors",
    "Url.Props.C23_set_user_false",
    "Url.Props.C23_clear_user_false",
    "Url.Props.C23_uninitialised_false",
    "Url.Props.C23_exposes",
    "Url.Props.C23_readable",
    "Url.Props.C23_written",
    "Url.Props.C23_debug_exact",
    "Url.Props.C23_debug_uninitialised_false"
   ],
   "note": "False for set_user of nothing (debug), and room made in front of a text of one character exposes uninitialised bytes. After any calls C23_debug_exact says which calls fail with assertions, and C23_exposes which may leave such bytes."
  },
  {
   "property": "C24",
   "status": "partial",
   "theorems": [
    "Url.Props.C24_size",
    "Url.Props.C24_size_used",
    "Url.Props.C24_monotone",
    "Url.Props.C24_monotone_edit",
    "Url.Props.C24_growth",
    "Url.Props.C24_growth_colon",
    "Url.Props.C24_colon_false",
    "Url.Props.C24_limit_false",
    "Url.Props.C24_size_worked",
    "Url.Props.C24_growth_worked",
    "Url.Props.C24_growth_edit",
    "Url.Props.C24_replace_false"
   ],
   "note": "False for set_password_part(\":\"), which may allocate for a result that fits, and from half of the allocator's limit on. For edits of segments it is in C24_growth_edit and C24_replace_false."
  },
  {
   "property": "C25",
   "status": "partial",
   "theorems": [
    "Url.Props.C25_fields_partial",
    "Url.Props.C25_authority_partial",
    "Url.Props.C25_authority_exact",
    "Url.Props.C25_worked",
    "Url.Props.C25_false",
    "Url.Props.C25_worked_false"
   ],
   "note": "False when one call clears the user or password and the other the host or port, and nothing else is in the authority (C25_authority_exact is an equivalence); holds otherwise, for calls that are not Defective. C25_worked: for different fields it holds after any calls and edits, unless the authority has one character."
  },
  {
   "property": "C26",
   "status": "partial",
   "theorems": [
    "Url.Props.C26_fields_partial",
    "Url.Props.C26_authority_partial",
    "Url.Props.C26_authority_exact",
    "Url.Props.C26_url_partial",
    "Url.Props.C26_worked",
    "Url.Props.C26_url_worked",
    "Url.Props.C26_false"
   ],
   "note": "False exactly when the second call clears the user or password which the first one added to a url without an authority (C26_authority_exact); for calls that are not Defective. C26_worked and C26_url_worked include all calls and histories."
  },
  {
   "property": "C27",
   "status": "proved",
   "theorems": [
    "Url.Props.C27_build"
   ],
   "note": ""
  },
  {
   "property": "C28",
   "status": "proved",
   "theorems": [
    "Url.Props.C28_normalize",
    "Url.Props.C28_idempotent",
    "Url.Props.C28_worked"
   ],
   "note": "C28_worked is for all histories."
  },
  {
   "property": "C29",
   "status": "proved",
   "theorems": [
    "Url.Props.C29_port_string",
    "Url.Props.C29_set_port_number",
    "Url.Props.C29_accepts"
   ],
   "note": ""
  },
  {
   "property": "C30",
   "status": "partial",
   "theorems": [
    "Url.Props.C30_partial",
    "Url.Props.C30_accepts",
    "Url.Props.C30_false",
    "Url.Props.C30_part",
    "Url.Props.C30_witness"
   ],
   "note": "False for every non-empty userinfo; what the call does instead is characterised."
  },
  {
   "property": "C31",
   "status": "partial",
   "theorems": [
    "Url.Props.C31_partial",
    "Url.Props.C31_accepts",
    "Url.Props.C31_host_type"
   ],
   "note": "False for the host type, which stays as it was (C31_host_type)."
  },
  {
   "property": "C32",
   "status": "partial",
   "theorems": [
    "Url.Props.C32_partial",
    "Url.Props.C32_effect_partial",
    "Url.Props.C32_exact",
    "Url.Props.C32_worked",
    "Url.Props.C32_origins",
    "Url.Props.C32_false"
   ],
   "note": "False: anything is accepted that starts like a URL. C32_exact is an equivalence: which arguments are rejected; C32_worked says what each accepted one does after any history."
  },
  {
   "property": "C33",
   "status": "partial",
   "theorems": [
    "Url.Props.C33_set_encoded_url_partial",
    "Url.Props.C33_kept_partial",
    "Url.Props.C33_counts_false",
    "Url.Props.C33_host_type_false",
    "Url.Props.C33_host_false",
    "Url.Props.C33_exact",
    "Url.Props.C33_cached"
   ],
   "note": "False: most setters do not update the cached values. C33_exact says for every call when it holds afterwards; C33_cached says what they are after every call, whatever the state."
  },
  {
   "property": "C34",
   "status": "proved",
   "theorems": [
    "Url.Props.C34_segments",
    "Url.Props.C34_inStep",
    "Url.Props.C34_stale",
    "Url.Props.C34_worked",
    "Url.Props.C34_gone",
    "Url.Props.C34_stale_false"
   ],
   "note": "Proved for parsed urls and all urls in step with their text; C34_worked and C34_gone say what the loop does after any calls and edits, also with stale counts."
  },
  {
   "property": "C35",
   "status": "partial",
   "theorems": [
    "Url.Props.C35_partial",
    "Url.Props.C35_false",
    "Url.Props.C35_const_partial",
    "Url.Props.C35_const_false",
    "Url.Props.C35_worked",
    "Url.Props.C35_worked_false",
    "Url.Props.C35_gone"
   ],
   "note": "False for every view or const url with a query and a non-empty path: the loop never ends. Holds for all others."
  },
  {
   "property": "C36",
   "status": "proved",
   "theorems": [
    "Url.Props.C36_bidirectional",
    "Url.Props.C36_end",
    "Url.Props.C36_const",
    "Url.Props.C36_worked"
   ],
   "note": ""
  },
  {
   "property": "C37",
   "status": "partial",
   "theorems": [
    "Url.Props.C37_partial",
    "Url.Props.C37_size_partial",
    "Url.Props.C37_count",
    "Url.Props.C37_position_partial",
    "Url.Props.C37_tidy_make",
    "Url.Props.C37_tidy_partial",
    "Url.Props.C37_outcome_partial",
    "Url.Props.C37_invalid",
    "Url.Props.C37_throw",
    "Url.Props.C37_front_false",
    "Url.Props.C37_front_case_false",
    "Url.Props.C37_end_false",
    "Url.Props.C37_end_case_false",
    "Url.Props.C37_rootless_false",
    "Url.Props.C37_empty_false"
   ],
   "note": "False in front of paths without a leading slash, at the end of paths without a query (assertion) and for default constructed urls."
  },
  {
   "property": "C38",
   "status": "partial",
   "theorems": [
    "Url.Props.C38_pairs_partial",
    "Url.Props.C38_partial",
    "Url.Props.C38_none",
    "Url.Props.C38_size",
    "Url.Props.C38_size_url",
    "Url.Props.C38_irregular_false",
    "Url.Props.C38_fragment_false",
    "Url.Props.C38_exact",
    "Url.Props.C38_zero",
    "Url.Props.C38_gone",
    "Url.Props.C38_irregular_case_false",
    "Url.Props.C38_fragment_case_false"
   ],
   "note": "False if a piece other than the last has no '=', and if the last has none and a fragment follows; C38_exact is an equivalence. All are for views and for urls after any calls and edits; C38_zero and C38_gone are about stale counts."
  },
  {
   "property": "C39",
   "status": "partial",
   "theorems": [
    "Url.Props.C39_hit_partial",
    "Url.Props.C39_miss_partial",
    "Url.Props.C39_count_partial",
    "Url.Props.C39_hit",
    "Url.Props.C39_lost",
    "Url.Props.C39_asserted",
    "Url.Props.C39_fragment_false"
   ],
   "note": "Proved whenever the loop over the parameters ends, and for every url for keys found before its end (C39_hit). If the last parameter has no '=' and a fragment follows, other lookups fail an assertion (C39_lost) or, without assertions, read the fragment (C39_fragment_false); with assertions no answer is wrong (C39_asserted)."
  },
  {
   "property": "C40",
   "status": "partial",
   "theorems": [
    "Url.Props.C40_partial",
    "Url.Props.C40_exact",
    "Url.Props.C40_first_false",
    "Url.Props.C40_amp_false",
    "Url.Props.C40_case_false"
   ],
   "note": "False for the first parameter and for keys that contain '&'; C40_exact is an equivalence."
  },
  {
   "property": "C41",
   "status": "partial",
   "theorems": [
    "Url.Props.C41_false",
    "Url.Props.C41_partial",
    "Url.Props.C41_container_false",
    "Url.Props.C41_container_partial",
    "Url.Props.C41_exact",
    "Url.Props.C41_view_exact"
   ],
   "note": "False for an empty authority, and only then: C41_exact and C41_view_exact are equivalences."
  },
  {
   "property": "C42",
   "status": "partial",
   "theorems": [
    "Url.Props.C42_partial",
    "Url.Props.C42_unsigned",
    "Url.Props.C42_to_string",
    "Url.Props.C42_is_special_partial",
    "Url.Props.C42_exact",
    "Url.Props.C42_false"
   ],
   "note": "Undefined for bytes from 128 on where char is signed: tolower is called with a negative value. Proved for all strings where char is unsigned; C42_exact says for which strings it is undefined otherwise, and that it holds for the others."
  },
  {
   "property": "C43",
   "status": "partial",
   "theorems": [
    "Url.Props.C43_partial",
    "Url.Props.C43_char",
    "Url.Props.C43_request_partial",
    "Url.Props.C43_exact",
    "Url.Props.C43_wrap",
    "Url.Props.C43_false",
    "Url.Props.C43_case_false",
    "Url.Props.C43_size_false"
   ],
   "note": "False if aligning leads beyond the end of the buffer. Proved for all sequences whose alignments divide the end address, in particular for char; C43_exact says which requests are granted."
  },
  {
   "property": "C44",
   "status": "partial",
   "theorems": [
    "Url.Props.C44_partial",
    "Url.Props.C44_false",
    "Url.Props.C44_case_false"
   ],
   "note": "False: the assignment does nothing."
  },
  {
   "property": "C45",
   "status": "proved",
   "theorems": [
    "Url.Props.C45_accessors",
    "Url.Props.C45_container"
   ],
   "note": ""
  },
  {
   "property": "C46",
   "status": "partial",
   "theorems": [
    "Url.Props.C46_password_part_partial",
    "Url.Props.C46_password_part_false",
    "Url.Props.C46_set_password_part_partial",
    "Url.Props.C46_set_password_part_false",
    "Url.Props.C46_colon_false"
   ],
   "note": "False: assertion fails; a lone colon without an authority corrupts the text."
  },
  {
   "property": "C47",
   "status": "partial",
   "theorems": [
    "Url.Props.C47_partial",
    "Url.Props.C47_false",
    "Url.Props.C47_colon_false"
   ],
   "note": "False for a lone colon without an authority."
  },
  {
   "property": "C48",
   "status": "proved",
   "theorems": [
    "Url.Props.C48_condition",
    "Url.Props.C48_messages",
    "Url.Props.C48_parser"
   ],
   "note": ""
  },
  {
   "property": "C49",
   "status": "proved",
   "theorems": [
    "Url.Props.C49_calls",
    "Url.Props.C49_edits",
    "Url.Props.C49_iterators",
    "Url.Props.C49_accessors"
   ],
   "note": ""
  },
  {
   "property": "C50",
   "status": "partial",
   "theorems": [
    "Url.Props.C50_partial",
    "Url.Props.C50_capacity_false",
    "Url.Props.C50_behind_false",
    "Url.Props.C50_self_false",
    "Url.Props.C50_edit_partial",
    "Url.Props.C50_edit_capacity_false",
    "Url.Props.C50_edit_self_false",
    "Url.Props.C50_edit_behind_false",
    "Url.Props.C50_worked_partial",
    "Url.Props.C50_worked_edit_partial",
    "Url.Props.C50_worked_edit_false"
   ],
   "note": "False if the call enlarges the capacity, and for parts of the url that are not in front of what is set."
  },
  {
   "property": "C51",
   "status": "proved",
   "theorems": [
    "Url.Props.C51_exact",
    "Url.Props.C51_wrong",
    "Url.Props.C51_fault"
   ],
   "note": ""
  },
  {
   "property": "C52",
   "status": "partial",
   "theorems": [
    "Url.Props.C52_calls_partial",
    "Url.Props.C52_edits_partial",
    "Url.Props.C52_histories_partial",
    "Url.Props.C52_used_partial",
    "Url.Props.C52_worked_calls_partial",
    "Url.Props.C52_worked_edits_partial",
    "Url.Props.C52_worked_partial",
    "Url.Props.C52_wrap_false",
    "Url.Props.C52_zero_false"
   ],
   "note": "False for arguments with about a third as many characters to escape as a size can count. Proved if three times the argument, 16 more and the largest allocation together are a size."
  },
  {
   "property": "C53",
   "status": "proved",
   "theorems": [
    "Url.Props.C53_owned",
    "Url.Props.C53_destroyed",
    "Url.Props.C53_constructor",
    "Url.Props.C53_call",
    "Url.Props.C53_edit",
    "Url.Props.C53_worked"
   ],
   "note": ""
  },
  {
   "property": "C54",
   "status": "partial",
   "theorems": [
    "Url.Props.C54_accessors",
    "Url.Props.C54_calls",
    "Url.Props.C54_sequences",
    "Url.Props.C54_edits_partial",
    "Url.Props.C54_edits_invalid",
    "Url.Props.C54_calls_worked",
    "Url.Props.C54_rejects_worked",
    "Url.Props.C54_edits_worked",
    "Url.Props.C54_histories",
    "Url.Props.C54_accessors_worked",
    "Url.Props.C54_edit_false",
    "Url.Props.C54_text_false",
    "Url.Props.C54_unwritten_false"
   ],
   "note": "False for edits in a build with assertions, which read the byte after the text; edits that return for both agree. Calls and accessors are proved. After any calls and edits (_worked, C54_histories) with one exception, C54_unwritten_false."
  },
  {
   "property": "C55",
   "status": "partial",
   "theorems": [
    "Url.Props.C55_segments",
    "Url.Props.C55_later",
    "Url.Props.C55_before",
    "Url.Props.C55_behind",
    "Url.Props.C55_params_partial",
    "Url.Props.C55_scheme_false",
    "Url.Props.C55_behind_false",
    "Url.Props.C55_params_false"
   ],
   "note": "False whenever the text in front of the element changes its length; proved to hold exactly when it does not. For parameters the loops before and after the call have to end."
  },
  {
   "property": "C56",
   "status": "partial",
   "theorems": [
    "Url.Props.C56_buffer",
    "Url.Props.C56_buffer_edit",
    "Url.Props.C56_fits",
    "Url.Props.C56_stays",
    "Url.Props.C56_strings",
    "Url.Props.C56_segments_false",
    "Url.Props.C56_params_false",
    "Url.Props.C56_strings_false",
    "Url.Props.C56_case_false",
    "Url.Props.C56_worked",
    "Url.Props.C56_worked_edit",
    "Url.Props.C56_worked_fits",
    "Url.Props.C56_worked_fits_edit",
    "Url.Props.C56_worked_strings",
    "Url.Props.C56_worked_strings_edit",
    "Url.Props.C56_worked_lost_false",
    "Url.Props.C56_worked_segments_false",
    "Url.Props.C56_worked_params_false"
   ],
   "note": "False exactly if the new text does not fit in the capacity: then the buffer is replaced and the old one is read. Proved if it fits."
  },
  {
   "property": "C57",
   "status": "partial",
   "theorems": [
    "Url.Props.C57_effect",
    "Url.Props.C57_release",
    "Url.Props.C57_exact",
    "Url.Props.C57_debug",
    "Url.Props.C57_throw",
    "Url.Props.C57_calls",
    "Url.Props.C57_accessors",
    "Url.Props.C57_kept_partial",
    "Url.Props.C57_next",
    "Url.Props.C57_deref",
    "Url.Props.C57_prev",
    "Url.Props.C57_begin",
    "Url.Props.C57_nth",
    "Url.Props.C57_positions",
    "Url.Props.C57_reach",
    "Url.Props.C57_walk",
    "Url.Props.C57_given",
    "Url.Props.C57_release_false",
    "Url.Props.C57_outside",
    "Url.Props.C57_outside_machine",
    "Url.Props.C57_returns",
    "Url.Props.C57_free",
    "Url.Props.C57_outside_false",
    "Url.Props.C57_begin_false"
   ],
   "note": "The effect is proved for all iterators into the path. False: inserting at the end of a text that no null character follows uses an indeterminate byte, as does begin() of an empty path that is counted as one. C57_exact and C57_debug are equivalences: exactly which edits fault, without and with assertions."
  },
  {
   "property": "C58",
   "status": "proved",
   "theorems": [
    "Url.Props.C58_default",
    "Url.Props.C58_walk",
    "Url.Props.C58_param_walk",
    "Url.Props.C58_find",
    "Url.Props.C58_count",
    "Url.Props.C58_mixed",
    "Url.Props.C58_param_mixed",
    "Url.Props.C58_self",
    "Url.Props.C58_debug",
    "Url.Props.C58_release",
    "Url.Props.C58_effect",
    "Url.Props.C58_null",
    "Url.Props.C58_element"
   ],
   "note": ""
  },
  {
   "property": "C59",
   "status": "partial",
   "theorems": [
    "Url.Props.C59_rfc",
    "Url.Props.C59_unique",
    "Url.Props.C59_partial",
    "Url.Props.C59_false"
   ],
   "note": "False as stated for paths with '?' or '#' in them (see C04); C59_partial is an equivalence."
  },
  {
   "property": "C60",
   "status": "partial",
   "theorems": [
    "Url.Props.C60_once",
    "Url.Props.C60_lives",
    "Url.Props.C60_inside",
    "Url.Props.C60_apart",
    "Url.Props.C60_call",
    "Url.Props.C60_throw",
    "Url.Props.C60_fault",
    "Url.Props.C60_taken",
    "Url.Props.C60_enough",
    "Url.Props.C60_capacity",
    "Url.Props.C60_small",
    "Url.Props.C60_top",
    "Url.Props.C60_null",
    "Url.Props.C60_reuse_false",
    "Url.Props.C60_copy_false"
   ],
   "note": "False: the memory of destroyed urls is never used again, a copy of a pool hands out the memory of the original, and with a default constructed allocator every call that needs a buffer is undefined. The rest is proved."
  },
  {
   "property": "C61",
   "status": "partial",
   "theorems": [
    "Url.Props.C61_call",
    "Url.Props.C61_edit",
    "Url.Props.C61_erase",
    "Url.Props.C61_normalize",
    "Url.Props.C61_kinds",
    "Url.Props.C61_clear",
    "Url.Props.C61_clear_history",
    "Url.Props.C61_colon_false",
    "Url.Props.C61_clear_false"
   ],
   "note": "Proved, with three exceptions that are part of C61_call and C61_edit: set_encoded_url does not compare with the largest size, set_password_part(\":\") makes room for two characters more than its result has, and a replacement takes the size of the text from the storage. C61_clear has a hypothesis about the slashes before the user, which holds after any history; C61_clear_false shows that it is needed after a Defective call."
  },
  {
   "property": "C62",
   "status": "partial",
   "theorems": [
    "Url.Props.C62_own",
    "Url.Props.C62_rejected",
    "Url.Props.C62_same",
    "Url.Props.C62_false"
   ],
   "note": "Proved with the exceptions spelled out (Forgets, Unfit) and for calls that are not Defective; C62_false shows an instance of each exception, and that set_encoded_userinfo and set_encoded_origin, which are Defective, do change the url or reject its own text."
  },
  {
   "property": "C63",
   "status": "partial",
   "theorems": [
    "Url.Props.C63_text",
    "Url.Props.C63_view",
    "Url.Props.C63_printable",
    "Url.Props.C63_delimiters",
    "Url.Props.C63_delimiters_view",
    "Url.Props.C63_worked",
    "Url.Props.C63_worked_delimiters",
    "Url.Props.C63_any_false",
    "Url.Props.C63_moved_false",
    "Url.Props.C63_userinfo_false"
   ],
   "note": "Proved but for one byte of the path: behind the first slash of a path without authority any byte but a slash is accepted (C63_any_false), and edits and set_encoded_host can move it along the path and behind an authority (C63_moved_false). C63_worked says which parts keep to their grammar after any calls and edits at all; the user information is not one of them (C63_userinfo_false)."
  },
  {
   "property": "C64",
   "status": "partial",
   "theorems": [
    "Url.Props.C64_combine",
    "Url.Props.C64_fragment",
    "Url.Props.C64_query",
    "Url.Props.C64_scheme",
    "Url.Props.C64_unscheme",
    "Url.Props.C64_cut",
    "Url.Props.C64_fragment_false"
   ],
   "note": "Proved, as equivalences, but for texts that end in a lone slash behind at most a scheme: the slash takes the `#` or `?` after it as the first character of a segment (C64_fragment_false)."
  },
  {
   "property": "C65",
   "status": "partial",
   "theorems": [
    "Url.Props.C65_rejected",
    "Url.Props.C65_view",
    "Url.Props.C65_reads",
    "Url.Props.C65_view_reads",
    "Url.Props.C65_false"
   ],
   "note": "Proved, as equivalences: which copies are rejected (Unfit) and which are not read back (a userinfo part `@`); for calls that are not Defective."
  },
  {
   "property": "C66",
   "status": "proved",
   "theorems": [
    "Url.Props.C66_same",
    "Url.Props.C66_linear",
    "Url.Props.C66_slope",
    "Url.Props.C66_factor"
   ],
   "note": "Proved for a copy of the parser that counts the characters it reads (Model/Cost.lean); C66_same shows that the copy computes what the parser computes."
  },
  {
   "property": "C67",
   "status": "proved",
   "theorems": [
    "Url.Props.C67_count",
    "Url.Props.C67_total",
    "Url.Props.C67_copied",
    "Url.Props.C67_within",
    "Url.Props.C67_bounded"
   ],
   "note": "C67_count, C67_total and C67_copied hold after any calls and edits, returning or throwing; C67_within and C67_bounded, which compare with the longest text, after any calls (a replacement of a segment may make room for more than its result has, see C24_replace_false)."
  },
  {
   "property": "C68",
   "status": "proved",
   "theorems": [
    "Url.Props.C68_same",
    "Url.Props.C68_same_segments",
    "Url.Props.C68_all",
    "Url.Props.C68_view",
    "Url.Props.C68_query",
    "Url.Props.C68_factor",
    "Url.Props.C68_segments",
    "Url.Props.C68_segments_view"
   ],
   "note": "Proved for copies of the loops that count the characters they read (Model/CostWalk.lean); C68_same and C68_same_segments show that the copies compute what the loops compute. The loop over the segments of a view with a query does not return (C35_false), so there is nothing to bound."
  },
  {
   "property": "C69",
   "status": "proved",
   "theorems": [
    "Url.Props.C69_calls",
    "Url.Props.C69_edits",
    "Url.Props.C69_history"
   ],
   "note": "An equivalence for each call that is not Defective and each edit that is Editable, stated in terms of what the accessors return before the call; C69_history: a url on which none of the listed calls and edits is made has a text that parses to its components at all times."
  },
  {
   "property": "C70",
   "status": "proved",
   "theorems": [
    "Url.Props.C70_field",
    "Url.Props.C70_url",
    "Url.Props.C70_part"
   ],
   "note": "Equivalences: Unfit (C62) is when the value that was read is rejected, Forgets (C62) when the getter does not tell present and empty from absent. The last conjunct of C70_part is the url that keeps the slashes."
  },
  {
   "property": "C71",
   "status": "proved",
   "theorems": [
    "Url.Props.C71_texts",
    "Url.Props.C71_rejects",
    "Url.Props.C71_determined",
    "Url.Props.C71_alike",
    "Url.Props.C71_accepts"
   ],
   "note": "Op.Takes and Op.Turns (Spec/Texts) describe what each call does to the texts, defects included. For set_encoded_origin Op.Takes is only necessary and Op.Turns does not determine the texts; C71_accepts and C32_worked do."
  },
  {
   "property": "C72",
   "status": "proved",
   "theorems": [
    "Url.Props.C72_counts",
    "Url.Props.C72_counts_edit",
    "Url.Props.C72_calls",
    "Url.Props.C72_stores",
    "Url.Props.C72_password_part",
    "Url.Props.C72_edits",
    "Url.Props.C72_replace_false",
    "Url.Props.C72_least",
    "Url.Props.C72_least_edit",
    "Url.Props.C72_copies"
   ],
   "note": "Proved for a copy of the calls that counts the bytes it writes (Model/Counted.lean); C72_counts and C72_counts_edit show that the copy does what the calls do, C72_least that it counts at least what changes. The bytes that are read are not counted."
  },
  {
   "property": "C73",
   "status": "proved",
   "theorems": [
    "Url.Props.C73_calls",
    "Url.Props.C73_edits",
    "Url.Props.C73_history",
    "Url.Props.C73_append",
    "Url.Props.C73_least",
    "Url.Props.C73_prepend"
   ],
   "note": "Proved for the counting copy of the calls of C72. C73_append and C73_prepend are about insertions that return."
  },
  {
   "property": "C74",
   "status": "partial",
   "theorems": [
    "Url.Props.C74_loop_partial",
    "Url.Props.C74_erase_partial",
    "Url.Props.C74_last_false",
    "Url.Props.C74_false"
   ],
   "note": "Proved for paths that are empty or start with a slash, or whose first segment is kept, in a build with assertions if there is a query or the last segment is kept; the state is reachable and in order (Tidy) and an int can count the segments. False otherwise: the loop never returns if the last segment is not kept in a build with assertions without a query (C74_last_false), and (C74_false) the count is wrong after the first segment of a path without a leading slash went."
  },
  {
   "property": "C75",
   "status": "partial",
   "theorems": [
    "Url.Props.C75_insert_partial",
    "Url.Props.C75_assign_partial",
    "Url.Props.C75_false",
    "Url.Props.C75_reread_false"
   ],
   "note": "Proved for the states of C74_loop_partial, with the inserted segments counted, for paths that are empty or start with a slash or a position behind the first segment, in a build with assertions if there is a query or the position is not the end. False otherwise (C75_false): an assertion fails at the end of a path without a query, and what is put in front of a path without a leading slash is merged with its first segment. Nothing is claimed about parsing the text again, where an empty first segment without an authority is read as the start of one (C75_reread_false)."
  }
 ]
}
