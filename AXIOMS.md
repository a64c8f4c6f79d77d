# Axioms per theorem

Written by `tools/axioms.py` from `#print axioms`.

| property | theorem | axioms |
|---|---|---|
| C01 | `Url.Props.C01_accepts_iff` | propext, Classical.choice, Quot.sound |
| C01 | `Url.Props.C01_rejects` | propext, Classical.choice, Quot.sound |
| C02 | `Url.Props.C02_lossless` | propext, Classical.choice, Quot.sound |
| C03 | `Url.Props.C03_components` | propext, Classical.choice, Quot.sound |
| C03 | `Url.Props.C03_unique` | propext, Classical.choice, Quot.sound |
| C04 | `Url.Props.C04_false` | propext, Classical.choice, Quot.sound |
| C04 | `Url.Props.C04_partial` | propext, Classical.choice, Quot.sound |
| C04 | `Url.Props.C04_exact` | propext, Classical.choice, Quot.sound |
| C05 | `Url.Props.C05_false` | propext, Quot.sound |
| C05 | `Url.Props.C05_partial` | propext, Classical.choice, Quot.sound |
| C05 | `Url.Props.C05_exact` | propext, Classical.choice, Quot.sound |
| C05 | `Url.Props.C05_components` | propext, Classical.choice, Quot.sound |
| C06 | `Url.Props.C06_host_type` | propext, Classical.choice, Quot.sound |
| C07 | `Url.Props.C07_false` | propext, Classical.choice, Quot.sound |
| C07 | `Url.Props.C07_sound_partial` | propext, Classical.choice, Quot.sound |
| C07 | `Url.Props.C07_complete_partial` | propext, Classical.choice, Quot.sound |
| C07 | `Url.Props.C07_sound_exact` | propext, Classical.choice, Quot.sound |
| C07 | `Url.Props.C07_complete_exact` | propext, Classical.choice, Quot.sound |
| C08 | `Url.Props.C08_total` | propext, Classical.choice, Quot.sound |
| C08 | `Url.Props.C08_parts` | propext, Classical.choice, Quot.sound |
| C09 | `Url.Props.C09_decode_encode` | propext, Quot.sound |
| C09 | `Url.Props.C09_decoded_encode` | propext, Quot.sound |
| C09 | `Url.Props.C09_encode_injective` | propext, Quot.sound |
| C10 | `Url.Props.C10_encode` | propext, Quot.sound |
| C10 | `Url.Props.C10_encode_id` | propext, Quot.sound |
| C11 | `Url.Props.C11_encoded_size` | propext, Quot.sound |
| C11 | `Url.Props.C11_decoded_size` | propext, Quot.sound |
| C11 | `Url.Props.C29_port_string` | propext, Classical.choice, Quot.sound |
| C12 | `Url.Props.C12_check_iff` | propext, Quot.sound |
| C12 | `Url.Props.C12_parse` | propext, Classical.choice, Quot.sound |
| C13 | `Url.Props.C13_key_equal` | propext, Quot.sound |
| C14 | `Url.Props.C14_decoding` | propext, Classical.choice, Quot.sound |
| C14 | `Url.Props.C14_container` | propext, Classical.choice, Quot.sound |
| C14 | `Url.Props.C14_segments_partial` | propext, Classical.choice, Quot.sound |
| C14 | `Url.Props.C14_reach_partial` | propext, Classical.choice, Quot.sound |
| C14 | `Url.Props.C14_exact` | propext, Classical.choice, Quot.sound |
| C14 | `Url.Props.C14_worked` | propext, Classical.choice, Quot.sound |
| C14 | `Url.Props.C14_moved_false` | propext, Classical.choice, Quot.sound |
| C14 | `Url.Props.C14_false` | propext |
| C15 | `Url.Props.C15_set_user` | propext, Classical.choice, Quot.sound |
| C15 | `Url.Props.C15_set_password` | propext, Classical.choice, Quot.sound |
| C15 | `Url.Props.C15_set_host` | propext, Classical.choice, Quot.sound |
| C15 | `Url.Props.C15_set_query` | propext, Classical.choice, Quot.sound |
| C15 | `Url.Props.C15_set_fragment` | propext, Classical.choice, Quot.sound |
| C15 | `Url.Props.C15_worked` | propext, Classical.choice, Quot.sound |
| C15 | `Url.Props.C15_worked_host` | propext, Classical.choice, Quot.sound |
| C15 | `Url.Props.C15_worked_user` | propext, Classical.choice, Quot.sound |
| C16 | `Url.Props.C16_set_scheme` | propext, Classical.choice, Quot.sound |
| C16 | `Url.Props.C16_set_encoded_user` | propext, Classical.choice, Quot.sound |
| C16 | `Url.Props.C16_set_encoded_password` | propext, Classical.choice, Quot.sound |
| C16 | `Url.Props.C16_set_encoded_host` | propext, Classical.choice, Quot.sound |
| C16 | `Url.Props.C16_set_port` | propext, Classical.choice, Quot.sound |
| C16 | `Url.Props.C16_set_encoded_path` | propext, Classical.choice, Quot.sound |
| C16 | `Url.Props.C16_set_encoded_query` | propext, Classical.choice, Quot.sound |
| C16 | `Url.Props.C16_set_encoded_fragment` | propext, Classical.choice, Quot.sound |
| C16 | `Url.Props.C16_set_query_part` | propext, Classical.choice, Quot.sound |
| C16 | `Url.Props.C16_set_fragment_part` | propext, Classical.choice, Quot.sound |
| C16 | `Url.Props.C16_set_encoded_url` | propext, Classical.choice, Quot.sound |
| C16 | `Url.Props.C16_worked` | propext, Classical.choice, Quot.sound |
| C16 | `Url.Props.C16_worked_user` | propext, Classical.choice, Quot.sound |
| C17 | `Url.Props.C17_frame_partial` | propext, Classical.choice, Quot.sound |
| C17 | `Url.Props.C17_authority_partial` | propext, Classical.choice, Quot.sound |
| C17 | `Url.Props.C17_used_partial` | propext, Classical.choice, Quot.sound |
| C17 | `Url.Props.C17_used` | propext, Classical.choice, Quot.sound |
| C17 | `Url.Props.C17_used_false` | propext |
| C18 | `Url.Props.C18_strong` | propext, Quot.sound |
| C18 | `Url.Props.C18_allocation` | propext, Quot.sound |
| C18 | `Url.Props.C18_observed` | propext, Quot.sound |
| C19 | `Url.Props.C19_returns` | propext, Classical.choice, Quot.sound |
| C19 | `Url.Props.C19_set_scheme` | propext, Classical.choice, Quot.sound |
| C19 | `Url.Props.C19_set_encoded_user` | propext, Classical.choice, Quot.sound |
| C19 | `Url.Props.C19_set_encoded_password_partial` | propext, Classical.choice, Quot.sound |
| C19 | `Url.Props.C19_set_encoded_host` | propext, Classical.choice, Quot.sound |
| C19 | `Url.Props.C19_set_port` | propext, Classical.choice, Quot.sound |
| C19 | `Url.Props.C19_set_encoded_path` | propext, Classical.choice, Quot.sound |
| C19 | `Url.Props.C19_set_encoded_query` | propext, Classical.choice, Quot.sound |
| C19 | `Url.Props.C19_set_encoded_fragment` | propext, Classical.choice, Quot.sound |
| C19 | `Url.Props.C19_set_query_part` | propext, Classical.choice, Quot.sound |
| C19 | `Url.Props.C19_set_fragment_part` | propext, Classical.choice, Quot.sound |
| C19 | `Url.Props.C19_set_encoded_url` | propext, Classical.choice, Quot.sound |
| C19 | `Url.Props.C19_set_encoded_userinfo` | propext, Classical.choice, Quot.sound |
| C19 | `Url.Props.C19_set_userinfo_part` | propext, Classical.choice, Quot.sound |
| C19 | `Url.Props.C19_set_password_part` | propext, Classical.choice, Quot.sound |
| C19 | `Url.Props.C19_set_port_part` | propext, Classical.choice, Quot.sound |
| C19 | `Url.Props.C19_plain` | propext, Classical.choice, Quot.sound |
| C19 | `Url.Props.C19_password_false` | propext |
| C19 | `Url.Props.C19_path_false` | propext |
| C19 | `Url.Props.C19_rfc_false` | propext |
| C20 | `Url.Props.C20_scheme` | propext, Classical.choice, Quot.sound |
| C20 | `Url.Props.C20_user` | propext, Classical.choice, Quot.sound |
| C20 | `Url.Props.C20_password` | propext, Classical.choice, Quot.sound |
| C20 | `Url.Props.C20_userinfo` | propext, Classical.choice, Quot.sound |
| C20 | `Url.Props.C20_host` | propext, Classical.choice, Quot.sound |
| C20 | `Url.Props.C20_port` | propext, Classical.choice, Quot.sound |
| C20 | `Url.Props.C20_authority` | propext, Classical.choice, Quot.sound |
| C20 | `Url.Props.C20_origin` | propext, Classical.choice, Quot.sound |
| C20 | `Url.Props.C20_path` | propext, Classical.choice, Quot.sound |
| C20 | `Url.Props.C20_query` | propext, Classical.choice, Quot.sound |
| C20 | `Url.Props.C20_encoded_query` | propext, Classical.choice, Quot.sound |
| C20 | `Url.Props.C20_fragment` | propext, Classical.choice, Quot.sound |
| C20 | `Url.Props.C20_encoded_fragment` | propext, Classical.choice, Quot.sound |
| C20 | `Url.Props.C20_url` | propext, Classical.choice, Quot.sound |
| C20 | `Url.Props.C20_user_false` | propext |
| C21 | `Url.Props.C21_partial` | propext, Classical.choice, Quot.sound |
| C21 | `Url.Props.C21_kept_partial` | propext, Classical.choice, Quot.sound |
| C21 | `Url.Props.C21_set_encoded_url` | propext, Classical.choice, Quot.sound |
| C21 | `Url.Props.C21_set_encoded_path` | propext, Classical.choice, Quot.sound |
| C21 | `Url.Props.C21_authority_false` | propext |
| C21 | `Url.Props.C21_rootless_false` | propext |
| C21 | `Url.Props.C21_scheme_false` | propext |
| C21 | `Url.Props.C21_slash_false` | propext |
| C21 | `Url.Props.C21_unchecked_false` | propext |
| C21 | `Url.Props.C21_erase_false` | propext |
| C22 | `Url.Props.C22_set_encoded_url_partial` | propext, Classical.choice, Quot.sound |
| C22 | `Url.Props.C22_kept_partial` | propext, Classical.choice, Quot.sound |
| C22 | `Url.Props.C22_edit_partial` | propext, Classical.choice, Quot.sound |
| C22 | `Url.Props.C22_history` | propext, Classical.choice, Quot.sound |
| C22 | `Url.Props.C22_exact` | propext, Classical.choice, Quot.sound |
| C22 | `Url.Props.C22_calls` | propext, Classical.choice, Quot.sound |
| C22 | `Url.Props.C22_call_kept` | propext, Classical.choice, Quot.sound |
| C22 | `Url.Props.C22_edit_kept` | propext, Classical.choice, Quot.sound |
| C22 | `Url.Props.C22_onward` | propext, Classical.choice, Quot.sound |
| C22 | `Url.Props.C22_given` | propext, Classical.choice, Quot.sound |
| C22 | `Url.Props.C22_false` | propext |
| C23 | `Url.Props.C23_calls_partial` | propext, Classical.choice, Quot.sound |
| C23 | `Url.Props.C23_accessors` | propext, Classical.choice, Quot.sound |
| C23 | `Url.Props.C23_release` | propext, Classical.choice, Quot.sound |
| C23 | `Url.Props.C23_release_accessors` | propext, Classical.choice, Quot.sound |
| C23 | `Url.Props.C23_set_user_false` | propext |
| C23 | `Url.Props.C23_clear_user_false` | propext, Classical.choice, Quot.sound |
| C23 | `Url.Props.C23_uninitialised_false` | propext |
| C23 | `Url.Props.C23_exposes` | propext, Classical.choice, Quot.sound |
| C23 | `Url.Props.C23_readable` | propext, Classical.choice, Quot.sound |
| C23 | `Url.Props.C23_written` | propext, Classical.choice, Quot.sound |
| C23 | `Url.Props.C23_debug_exact` | propext, Classical.choice, Quot.sound |
| C23 | `Url.Props.C23_debug_uninitialised_false` | propext |
| C24 | `Url.Props.C24_size` | propext, Classical.choice, Quot.sound |
| C24 | `Url.Props.C24_size_used` | propext, Classical.choice, Quot.sound |
| C24 | `Url.Props.C24_monotone` | propext, Classical.choice, Quot.sound |
| C24 | `Url.Props.C24_monotone_edit` | propext, Classical.choice, Quot.sound |
| C24 | `Url.Props.C24_growth` | propext, Classical.choice, Quot.sound |
| C24 | `Url.Props.C24_growth_colon` | propext, Classical.choice, Quot.sound |
| C24 | `Url.Props.C24_colon_false` | propext, Quot.sound |
| C24 | `Url.Props.C24_limit_false` | propext, Classical.choice, Quot.sound |
| C24 | `Url.Props.C24_size_worked` | propext, Classical.choice, Quot.sound |
| C24 | `Url.Props.C24_growth_worked` | propext, Classical.choice, Quot.sound |
| C24 | `Url.Props.C24_growth_edit` | propext, Classical.choice, Quot.sound |
| C24 | `Url.Props.C24_replace_false` | propext |
| C25 | `Url.Props.C25_fields_partial` | propext, Classical.choice, Quot.sound |
| C25 | `Url.Props.C25_authority_partial` | propext, Classical.choice, Quot.sound |
| C25 | `Url.Props.C25_authority_exact` | propext, Classical.choice, Quot.sound |
| C25 | `Url.Props.C25_worked` | propext, Classical.choice, Quot.sound |
| C25 | `Url.Props.C25_false` | propext |
| C25 | `Url.Props.C25_worked_false` | propext |
| C26 | `Url.Props.C26_fields_partial` | propext, Classical.choice, Quot.sound |
| C26 | `Url.Props.C26_authority_partial` | propext, Classical.choice, Quot.sound |
| C26 | `Url.Props.C26_authority_exact` | propext, Classical.choice, Quot.sound |
| C26 | `Url.Props.C26_url_partial` | propext, Classical.choice, Quot.sound |
| C26 | `Url.Props.C26_worked` | propext, Classical.choice, Quot.sound |
| C26 | `Url.Props.C26_url_worked` | propext, Classical.choice, Quot.sound |
| C26 | `Url.Props.C26_false` | propext |
| C27 | `Url.Props.C27_build` | propext, Classical.choice, Quot.sound |
| C28 | `Url.Props.C28_normalize` | propext, Classical.choice, Quot.sound |
| C28 | `Url.Props.C28_idempotent` | propext, Classical.choice, Quot.sound |
| C28 | `Url.Props.C28_worked` | propext, Classical.choice, Quot.sound |
| C29 | `Url.Props.C29_port_string` | propext, Classical.choice, Quot.sound |
| C29 | `Url.Props.C29_set_port_number` | propext, Classical.choice, Quot.sound |
| C29 | `Url.Props.C29_accepts` | propext, Classical.choice, Quot.sound |
| C30 | `Url.Props.C30_partial` | propext, Classical.choice, Quot.sound |
| C30 | `Url.Props.C30_accepts` | propext, Classical.choice, Quot.sound |
| C30 | `Url.Props.C30_false` | propext, Classical.choice, Quot.sound |
| C30 | `Url.Props.C30_part` | propext, Classical.choice, Quot.sound |
| C30 | `Url.Props.C30_witness` | propext |
| C31 | `Url.Props.C31_partial` | propext, Classical.choice, Quot.sound |
| C31 | `Url.Props.C31_accepts` | propext, Classical.choice, Quot.sound |
| C31 | `Url.Props.C31_host_type` | propext, Classical.choice, Quot.sound |
| C32 | `Url.Props.C32_partial` | propext, Classical.choice, Quot.sound |
| C32 | `Url.Props.C32_effect_partial` | propext, Classical.choice, Quot.sound |
| C32 | `Url.Props.C32_exact` | propext, Classical.choice, Quot.sound |
| C32 | `Url.Props.C32_worked` | propext, Classical.choice, Quot.sound |
| C32 | `Url.Props.C32_origins` | propext, Quot.sound |
| C32 | `Url.Props.C32_false` | propext |
| C33 | `Url.Props.C33_set_encoded_url_partial` | propext, Classical.choice, Quot.sound |
| C33 | `Url.Props.C33_kept_partial` | propext, Classical.choice, Quot.sound |
| C33 | `Url.Props.C33_counts_false` | propext |
| C33 | `Url.Props.C33_host_type_false` | propext |
| C33 | `Url.Props.C33_host_false` | propext |
| C33 | `Url.Props.C33_exact` | propext, Classical.choice, Quot.sound |
| C33 | `Url.Props.C33_cached` | propext, Classical.choice, Quot.sound |
| C34 | `Url.Props.C34_segments` | propext, Classical.choice, Quot.sound |
| C34 | `Url.Props.C34_inStep` | propext, Classical.choice, Quot.sound |
| C34 | `Url.Props.C34_stale` | propext, Classical.choice, Quot.sound |
| C34 | `Url.Props.C34_worked` | propext, Classical.choice, Quot.sound |
| C34 | `Url.Props.C34_gone` | propext, Classical.choice, Quot.sound |
| C34 | `Url.Props.C34_stale_false` | propext |
| C35 | `Url.Props.C35_partial` | propext, Classical.choice, Quot.sound |
| C35 | `Url.Props.C35_false` | propext, Classical.choice, Quot.sound |
| C35 | `Url.Props.C35_const_partial` | propext, Classical.choice, Quot.sound |
| C35 | `Url.Props.C35_const_false` | propext, Classical.choice, Quot.sound |
| C35 | `Url.Props.C35_worked` | propext, Classical.choice, Quot.sound |
| C35 | `Url.Props.C35_worked_false` | propext, Classical.choice, Quot.sound |
| C35 | `Url.Props.C35_gone` | propext, Classical.choice, Quot.sound |
| C36 | `Url.Props.C36_bidirectional` | propext, Classical.choice, Quot.sound |
| C36 | `Url.Props.C36_end` | propext, Classical.choice, Quot.sound |
| C36 | `Url.Props.C36_const` | propext, Classical.choice, Quot.sound |
| C36 | `Url.Props.C36_worked` | propext, Classical.choice, Quot.sound |
| C37 | `Url.Props.C37_partial` | propext, Classical.choice, Quot.sound |
| C37 | `Url.Props.C37_size_partial` | propext, Classical.choice, Quot.sound |
| C37 | `Url.Props.C37_count` | propext, Classical.choice, Quot.sound |
| C37 | `Url.Props.C37_position_partial` | propext, Classical.choice, Quot.sound |
| C37 | `Url.Props.C37_tidy_make` | propext, Classical.choice, Quot.sound |
| C37 | `Url.Props.C37_tidy_partial` | propext, Classical.choice, Quot.sound |
| C37 | `Url.Props.C37_outcome_partial` | propext, Classical.choice, Quot.sound |
| C37 | `Url.Props.C37_invalid` | propext, Classical.choice, Quot.sound |
| C37 | `Url.Props.C37_throw` | propext, Classical.choice, Quot.sound |
| C37 | `Url.Props.C37_front_false` | propext, Classical.choice, Quot.sound |
| C37 | `Url.Props.C37_front_case_false` | propext, Classical.choice, Quot.sound |
| C37 | `Url.Props.C37_end_false` | propext, Classical.choice, Quot.sound |
| C37 | `Url.Props.C37_end_case_false` | propext, Classical.choice, Quot.sound |
| C37 | `Url.Props.C37_rootless_false` | propext |
| C37 | `Url.Props.C37_empty_false` | propext |
| C38 | `Url.Props.C38_pairs_partial` | propext, Classical.choice, Quot.sound |
| C38 | `Url.Props.C38_partial` | propext, Classical.choice, Quot.sound |
| C38 | `Url.Props.C38_none` | propext, Classical.choice, Quot.sound |
| C38 | `Url.Props.C38_size` | propext, Classical.choice, Quot.sound |
| C38 | `Url.Props.C38_size_url` | propext, Classical.choice, Quot.sound |
| C38 | `Url.Props.C38_irregular_false` | propext, Classical.choice, Quot.sound |
| C38 | `Url.Props.C38_fragment_false` | propext, Classical.choice, Quot.sound |
| C38 | `Url.Props.C38_exact` | propext, Classical.choice, Quot.sound |
| C38 | `Url.Props.C38_zero` | propext, Classical.choice, Quot.sound |
| C38 | `Url.Props.C38_gone` | propext, Classical.choice, Quot.sound |
| C38 | `Url.Props.C38_irregular_case_false` | propext |
| C38 | `Url.Props.C38_fragment_case_false` | propext |
| C39 | `Url.Props.C39_hit_partial` | propext, Classical.choice, Quot.sound |
| C39 | `Url.Props.C39_miss_partial` | propext, Classical.choice, Quot.sound |
| C39 | `Url.Props.C39_count_partial` | propext, Classical.choice, Quot.sound |
| C39 | `Url.Props.C39_hit` | propext, Classical.choice, Quot.sound |
| C39 | `Url.Props.C39_lost` | propext, Classical.choice, Quot.sound |
| C39 | `Url.Props.C39_asserted` | propext, Classical.choice, Quot.sound |
| C39 | `Url.Props.C39_fragment_false` | propext |
| C40 | `Url.Props.C40_partial` | propext, Classical.choice, Quot.sound |
| C40 | `Url.Props.C40_exact` | propext, Classical.choice, Quot.sound |
| C40 | `Url.Props.C40_first_false` | propext, Classical.choice, Quot.sound |
| C40 | `Url.Props.C40_amp_false` | propext, Classical.choice, Quot.sound |
| C40 | `Url.Props.C40_case_false` | propext |
| C41 | `Url.Props.C41_false` | propext |
| C41 | `Url.Props.C41_partial` | propext, Classical.choice, Quot.sound |
| C41 | `Url.Props.C41_container_false` | propext |
| C41 | `Url.Props.C41_container_partial` | propext, Classical.choice, Quot.sound |
| C41 | `Url.Props.C41_exact` | propext, Classical.choice, Quot.sound |
| C41 | `Url.Props.C41_view_exact` | propext, Classical.choice, Quot.sound |
| C42 | `Url.Props.C42_partial` | propext, Classical.choice, Quot.sound |
| C42 | `Url.Props.C42_unsigned` | propext, Classical.choice, Quot.sound |
| C42 | `Url.Props.C42_to_string` | propext |
| C42 | `Url.Props.C42_is_special_partial` | propext, Classical.choice, Quot.sound |
| C42 | `Url.Props.C42_exact` | propext, Classical.choice, Quot.sound |
| C42 | `Url.Props.C42_false` | propext |
| C43 | `Url.Props.C43_partial` | propext, Quot.sound |
| C43 | `Url.Props.C43_char` | propext, Quot.sound |
| C43 | `Url.Props.C43_request_partial` | propext, Quot.sound |
| C43 | `Url.Props.C43_exact` | propext, Classical.choice, Quot.sound |
| C43 | `Url.Props.C43_wrap` | propext, Classical.choice, Quot.sound |
| C43 | `Url.Props.C43_false` | propext, Quot.sound |
| C43 | `Url.Props.C43_case_false` | none |
| C43 | `Url.Props.C43_size_false` | none |
| C44 | `Url.Props.C44_partial` | none |
| C44 | `Url.Props.C44_false` | none |
| C44 | `Url.Props.C44_case_false` | propext |
| C45 | `Url.Props.C45_accessors` | propext, Classical.choice, Quot.sound |
| C45 | `Url.Props.C45_container` | propext, Classical.choice, Quot.sound |
| C46 | `Url.Props.C46_password_part_partial` | propext, Classical.choice, Quot.sound |
| C46 | `Url.Props.C46_password_part_false` | propext, Classical.choice, Quot.sound |
| C46 | `Url.Props.C46_set_password_part_partial` | propext, Classical.choice, Quot.sound |
| C46 | `Url.Props.C46_set_password_part_false` | propext |
| C46 | `Url.Props.C46_colon_false` | propext, Classical.choice, Quot.sound |
| C47 | `Url.Props.C47_partial` | propext, Classical.choice, Quot.sound |
| C47 | `Url.Props.C47_false` | propext |
| C47 | `Url.Props.C47_colon_false` | propext, Classical.choice, Quot.sound |
| C48 | `Url.Props.C48_condition` | propext |
| C48 | `Url.Props.C48_messages` | propext, Quot.sound |
| C48 | `Url.Props.C48_parser` | none |
| C49 | `Url.Props.C49_calls` | propext |
| C49 | `Url.Props.C49_edits` | propext, Quot.sound |
| C49 | `Url.Props.C49_iterators` | propext, Quot.sound |
| C49 | `Url.Props.C49_accessors` | propext, Quot.sound |
| C50 | `Url.Props.C50_partial` | propext, Classical.choice, Quot.sound |
| C50 | `Url.Props.C50_capacity_false` | propext, Classical.choice, Quot.sound |
| C50 | `Url.Props.C50_behind_false` | propext |
| C50 | `Url.Props.C50_self_false` | propext, Quot.sound |
| C50 | `Url.Props.C50_edit_partial` | propext, Classical.choice, Quot.sound |
| C50 | `Url.Props.C50_edit_capacity_false` | propext, Classical.choice, Quot.sound |
| C50 | `Url.Props.C50_edit_self_false` | propext, Quot.sound |
| C50 | `Url.Props.C50_edit_behind_false` | propext, Quot.sound |
| C50 | `Url.Props.C50_worked_partial` | propext, Classical.choice, Quot.sound |
| C50 | `Url.Props.C50_worked_edit_partial` | propext, Classical.choice, Quot.sound |
| C50 | `Url.Props.C50_worked_edit_false` | propext, Classical.choice, Quot.sound |
| C51 | `Url.Props.C51_exact` | propext, Classical.choice, Quot.sound |
| C51 | `Url.Props.C51_wrong` | propext, Classical.choice, Quot.sound |
| C51 | `Url.Props.C51_fault` | propext, Classical.choice, Quot.sound |
| C52 | `Url.Props.C52_calls_partial` | propext, Classical.choice, Quot.sound |
| C52 | `Url.Props.C52_edits_partial` | propext, Classical.choice, Quot.sound |
| C52 | `Url.Props.C52_histories_partial` | propext, Classical.choice, Quot.sound |
| C52 | `Url.Props.C52_used_partial` | propext, Classical.choice, Quot.sound |
| C52 | `Url.Props.C52_worked_calls_partial` | propext, Classical.choice, Quot.sound |
| C52 | `Url.Props.C52_worked_edits_partial` | propext, Classical.choice, Quot.sound |
| C52 | `Url.Props.C52_worked_partial` | propext, Classical.choice, Quot.sound |
| C52 | `Url.Props.C52_wrap_false` | propext, Classical.choice, Quot.sound |
| C52 | `Url.Props.C52_zero_false` | propext, Quot.sound |
| C53 | `Url.Props.C53_owned` | propext, Classical.choice, Quot.sound |
| C53 | `Url.Props.C53_destroyed` | propext, Classical.choice, Quot.sound |
| C53 | `Url.Props.C53_constructor` | propext, Classical.choice, Quot.sound |
| C53 | `Url.Props.C53_call` | propext, Classical.choice, Quot.sound |
| C53 | `Url.Props.C53_edit` | propext, Classical.choice, Quot.sound |
| C53 | `Url.Props.C53_worked` | propext, Classical.choice, Quot.sound |
| C54 | `Url.Props.C54_accessors` | propext, Classical.choice, Quot.sound |
| C54 | `Url.Props.C54_calls` | propext, Classical.choice, Quot.sound |
| C54 | `Url.Props.C54_sequences` | propext, Classical.choice, Quot.sound |
| C54 | `Url.Props.C54_edits_partial` | propext, Classical.choice, Quot.sound |
| C54 | `Url.Props.C54_edits_invalid` | propext, Classical.choice, Quot.sound |
| C54 | `Url.Props.C54_calls_worked` | propext, Classical.choice, Quot.sound |
| C54 | `Url.Props.C54_rejects_worked` | propext, Classical.choice, Quot.sound |
| C54 | `Url.Props.C54_edits_worked` | propext, Classical.choice, Quot.sound |
| C54 | `Url.Props.C54_histories` | propext, Classical.choice, Quot.sound |
| C54 | `Url.Props.C54_accessors_worked` | propext, Classical.choice, Quot.sound |
| C54 | `Url.Props.C54_edit_false` | propext, Classical.choice, Quot.sound |
| C54 | `Url.Props.C54_text_false` | propext |
| C54 | `Url.Props.C54_unwritten_false` | propext, Classical.choice, Quot.sound |
| C55 | `Url.Props.C55_segments` | propext, Classical.choice, Quot.sound |
| C55 | `Url.Props.C55_later` | propext, Classical.choice, Quot.sound |
| C55 | `Url.Props.C55_before` | propext, Classical.choice, Quot.sound |
| C55 | `Url.Props.C55_behind` | propext, Classical.choice, Quot.sound |
| C55 | `Url.Props.C55_params_partial` | propext, Classical.choice, Quot.sound |
| C55 | `Url.Props.C55_scheme_false` | propext, Classical.choice, Quot.sound |
| C55 | `Url.Props.C55_behind_false` | propext, Classical.choice, Quot.sound |
| C55 | `Url.Props.C55_params_false` | propext, Classical.choice, Quot.sound |
| C56 | `Url.Props.C56_buffer` | propext, Classical.choice, Quot.sound |
| C56 | `Url.Props.C56_buffer_edit` | propext, Classical.choice, Quot.sound |
| C56 | `Url.Props.C56_fits` | propext, Classical.choice, Quot.sound |
| C56 | `Url.Props.C56_stays` | none |
| C56 | `Url.Props.C56_strings` | propext, Classical.choice, Quot.sound |
| C56 | `Url.Props.C56_segments_false` | propext, Classical.choice, Quot.sound |
| C56 | `Url.Props.C56_params_false` | propext, Classical.choice, Quot.sound |
| C56 | `Url.Props.C56_strings_false` | propext, Classical.choice, Quot.sound |
| C56 | `Url.Props.C56_case_false` | propext, Classical.choice, Quot.sound |
| C56 | `Url.Props.C56_worked` | propext, Classical.choice, Quot.sound |
| C56 | `Url.Props.C56_worked_edit` | propext, Classical.choice, Quot.sound |
| C56 | `Url.Props.C56_worked_fits` | propext, Classical.choice, Quot.sound |
| C56 | `Url.Props.C56_worked_fits_edit` | propext, Classical.choice, Quot.sound |
| C56 | `Url.Props.C56_worked_strings` | propext, Classical.choice, Quot.sound |
| C56 | `Url.Props.C56_worked_strings_edit` | propext, Classical.choice, Quot.sound |
| C56 | `Url.Props.C56_worked_lost_false` | propext, Quot.sound |
| C56 | `Url.Props.C56_worked_segments_false` | propext, Classical.choice, Quot.sound |
| C56 | `Url.Props.C56_worked_params_false` | propext, Quot.sound |
| C57 | `Url.Props.C57_effect` | propext, Classical.choice, Quot.sound |
| C57 | `Url.Props.C57_release` | propext, Classical.choice, Quot.sound |
| C57 | `Url.Props.C57_exact` | propext, Classical.choice, Quot.sound |
| C57 | `Url.Props.C57_debug` | propext, Classical.choice, Quot.sound |
| C57 | `Url.Props.C57_throw` | propext, Classical.choice, Quot.sound |
| C57 | `Url.Props.C57_calls` | propext, Classical.choice, Quot.sound |
| C57 | `Url.Props.C57_accessors` | propext, Classical.choice, Quot.sound |
| C57 | `Url.Props.C57_kept_partial` | propext, Classical.choice, Quot.sound |
| C57 | `Url.Props.C57_next` | propext, Classical.choice, Quot.sound |
| C57 | `Url.Props.C57_deref` | propext, Classical.choice, Quot.sound |
| C57 | `Url.Props.C57_prev` | propext, Classical.choice, Quot.sound |
| C57 | `Url.Props.C57_begin` | propext, Classical.choice, Quot.sound |
| C57 | `Url.Props.C57_nth` | propext, Classical.choice, Quot.sound |
| C57 | `Url.Props.C57_positions` | propext, Classical.choice, Quot.sound |
| C57 | `Url.Props.C57_reach` | propext, Classical.choice, Quot.sound |
| C57 | `Url.Props.C57_walk` | propext, Classical.choice, Quot.sound |
| C57 | `Url.Props.C57_given` | propext, Classical.choice, Quot.sound |
| C57 | `Url.Props.C57_release_false` | propext |
| C57 | `Url.Props.C57_outside` | propext, Classical.choice, Quot.sound |
| C57 | `Url.Props.C57_outside_machine` | propext, Classical.choice, Quot.sound |
| C57 | `Url.Props.C57_returns` | propext, Classical.choice, Quot.sound |
| C57 | `Url.Props.C57_free` | propext, Classical.choice, Quot.sound |
| C57 | `Url.Props.C57_outside_false` | propext |
| C57 | `Url.Props.C57_begin_false` | propext, Quot.sound |
| C58 | `Url.Props.C58_default` | propext |
| C58 | `Url.Props.C58_walk` | propext, Quot.sound |
| C58 | `Url.Props.C58_param_walk` | propext, Quot.sound |
| C58 | `Url.Props.C58_find` | propext, Quot.sound |
| C58 | `Url.Props.C58_count` | propext, Quot.sound |
| C58 | `Url.Props.C58_mixed` | propext |
| C58 | `Url.Props.C58_param_mixed` | propext |
| C58 | `Url.Props.C58_self` | propext, Quot.sound |
| C58 | `Url.Props.C58_debug` | propext, Quot.sound |
| C58 | `Url.Props.C58_release` | propext, Quot.sound |
| C58 | `Url.Props.C58_effect` | propext, Classical.choice, Quot.sound |
| C58 | `Url.Props.C58_null` | propext, Quot.sound |
| C58 | `Url.Props.C58_element` | propext |
| C59 | `Url.Props.C59_rfc` | propext, Classical.choice, Quot.sound |
| C59 | `Url.Props.C59_unique` | propext, Classical.choice, Quot.sound |
| C59 | `Url.Props.C59_partial` | propext, Classical.choice, Quot.sound |
| C59 | `Url.Props.C59_false` | propext |
| C60 | `Url.Props.C60_once` | propext, Classical.choice, Quot.sound |
| C60 | `Url.Props.C60_lives` | propext, Classical.choice, Quot.sound |
| C60 | `Url.Props.C60_inside` | propext, Classical.choice, Quot.sound |
| C60 | `Url.Props.C60_apart` | propext, Classical.choice, Quot.sound |
| C60 | `Url.Props.C60_call` | propext, Classical.choice, Quot.sound |
| C60 | `Url.Props.C60_throw` | propext, Classical.choice, Quot.sound |
| C60 | `Url.Props.C60_fault` | propext, Classical.choice, Quot.sound |
| C60 | `Url.Props.C60_taken` | propext, Classical.choice, Quot.sound |
| C60 | `Url.Props.C60_enough` | propext, Classical.choice, Quot.sound |
| C60 | `Url.Props.C60_capacity` | propext, Classical.choice, Quot.sound |
| C60 | `Url.Props.C60_small` | propext, Classical.choice, Quot.sound |
| C60 | `Url.Props.C60_top` | propext, Classical.choice, Quot.sound |
| C60 | `Url.Props.C60_null` | propext, Classical.choice, Quot.sound |
| C60 | `Url.Props.C60_reuse_false` | propext |
| C60 | `Url.Props.C60_copy_false` | propext, Quot.sound |
| C61 | `Url.Props.C61_call` | propext, Classical.choice, Quot.sound |
| C61 | `Url.Props.C61_edit` | propext, Classical.choice, Quot.sound |
| C61 | `Url.Props.C61_erase` | propext, Classical.choice, Quot.sound |
| C61 | `Url.Props.C61_normalize` | propext |
| C61 | `Url.Props.C61_kinds` | propext, Classical.choice, Quot.sound |
| C61 | `Url.Props.C61_clear` | propext, Classical.choice, Quot.sound |
| C61 | `Url.Props.C61_clear_history` | propext, Classical.choice, Quot.sound |
| C61 | `Url.Props.C61_colon_false` | propext |
| C61 | `Url.Props.C61_clear_false` | propext |
| C62 | `Url.Props.C62_own` | propext, Classical.choice, Quot.sound |
| C62 | `Url.Props.C62_rejected` | propext, Classical.choice, Quot.sound |
| C62 | `Url.Props.C62_same` | propext, Classical.choice, Quot.sound |
| C62 | `Url.Props.C62_false` | propext |
| C63 | `Url.Props.C63_text` | propext, Classical.choice, Quot.sound |
| C63 | `Url.Props.C63_view` | propext, Classical.choice, Quot.sound |
| C63 | `Url.Props.C63_printable` | propext, Classical.choice, Quot.sound |
| C63 | `Url.Props.C63_delimiters` | propext, Classical.choice, Quot.sound |
| C63 | `Url.Props.C63_delimiters_view` | propext, Classical.choice, Quot.sound |
| C63 | `Url.Props.C63_worked` | propext, Classical.choice, Quot.sound |
| C63 | `Url.Props.C63_worked_delimiters` | propext, Classical.choice, Quot.sound |
| C63 | `Url.Props.C63_any_false` | propext, Classical.choice, Quot.sound |
| C63 | `Url.Props.C63_moved_false` | propext |
| C63 | `Url.Props.C63_userinfo_false` | propext |
| C64 | `Url.Props.C64_combine` | propext, Classical.choice, Quot.sound |
| C64 | `Url.Props.C64_fragment` | propext, Classical.choice, Quot.sound |
| C64 | `Url.Props.C64_query` | propext, Classical.choice, Quot.sound |
| C64 | `Url.Props.C64_scheme` | propext, Classical.choice, Quot.sound |
| C64 | `Url.Props.C64_unscheme` | propext, Classical.choice, Quot.sound |
| C64 | `Url.Props.C64_cut` | propext, Classical.choice, Quot.sound |
| C64 | `Url.Props.C64_fragment_false` | propext |
| C65 | `Url.Props.C65_rejected` | propext, Classical.choice, Quot.sound |
| C65 | `Url.Props.C65_view` | propext, Classical.choice, Quot.sound |
| C65 | `Url.Props.C65_reads` | propext, Classical.choice, Quot.sound |
| C65 | `Url.Props.C65_view_reads` | propext, Classical.choice, Quot.sound |
| C65 | `Url.Props.C65_false` | propext, Quot.sound |
| C66 | `Url.Props.C66_same` | propext, Classical.choice, Quot.sound |
| C66 | `Url.Props.C66_linear` | propext, Classical.choice, Quot.sound |
| C66 | `Url.Props.C66_slope` | propext, Classical.choice, Quot.sound |
| C66 | `Url.Props.C66_factor` | propext, Classical.choice, Quot.sound |
| C67 | `Url.Props.C67_count` | propext, Classical.choice, Quot.sound |
| C67 | `Url.Props.C67_total` | propext, Classical.choice, Quot.sound |
| C67 | `Url.Props.C67_copied` | propext, Classical.choice, Quot.sound |
| C67 | `Url.Props.C67_within` | propext, Classical.choice, Quot.sound |
| C67 | `Url.Props.C67_bounded` | propext, Classical.choice, Quot.sound |
| C68 | `Url.Props.C68_same` | propext, Classical.choice, Quot.sound |
| C68 | `Url.Props.C68_same_segments` | propext, Quot.sound |
| C68 | `Url.Props.C68_all` | propext, Classical.choice, Quot.sound |
| C68 | `Url.Props.C68_view` | propext, Classical.choice, Quot.sound |
| C68 | `Url.Props.C68_query` | propext, Classical.choice, Quot.sound |
| C68 | `Url.Props.C68_factor` | propext, Classical.choice, Quot.sound |
| C68 | `Url.Props.C68_segments` | propext, Classical.choice, Quot.sound |
| C68 | `Url.Props.C68_segments_view` | propext, Classical.choice, Quot.sound |
| C69 | `Url.Props.C69_calls` | propext, Classical.choice, Quot.sound |
| C69 | `Url.Props.C69_edits` | propext, Classical.choice, Quot.sound |
| C69 | `Url.Props.C69_history` | propext, Classical.choice, Quot.sound |
| C70 | `Url.Props.C70_field` | propext, Classical.choice, Quot.sound |
| C70 | `Url.Props.C70_url` | propext, Classical.choice, Quot.sound |
| C70 | `Url.Props.C70_part` | propext, Classical.choice, Quot.sound |
| C71 | `Url.Props.C71_texts` | propext, Classical.choice, Quot.sound |
| C71 | `Url.Props.C71_rejects` | propext, Classical.choice, Quot.sound |
| C71 | `Url.Props.C71_determined` | propext, Classical.choice, Quot.sound |
| C71 | `Url.Props.C71_alike` | propext, Classical.choice, Quot.sound |
| C71 | `Url.Props.C71_accepts` | propext, Classical.choice, Quot.sound |
| C72 | `Url.Props.C72_counts` | propext |
| C72 | `Url.Props.C72_counts_edit` | propext |
| C72 | `Url.Props.C72_calls` | propext, Classical.choice, Quot.sound |
| C72 | `Url.Props.C72_stores` | propext, Classical.choice, Quot.sound |
| C72 | `Url.Props.C72_password_part` | propext, Classical.choice, Quot.sound |
| C72 | `Url.Props.C72_edits` | propext, Classical.choice, Quot.sound |
| C72 | `Url.Props.C72_replace_false` | propext |
| C72 | `Url.Props.C72_least` | propext, Classical.choice, Quot.sound |
| C72 | `Url.Props.C72_least_edit` | propext, Classical.choice, Quot.sound |
| C72 | `Url.Props.C72_copies` | propext, Classical.choice, Quot.sound |
| C73 | `Url.Props.C73_calls` | propext, Classical.choice, Quot.sound |
| C73 | `Url.Props.C73_edits` | propext, Classical.choice, Quot.sound |
| C73 | `Url.Props.C73_history` | propext, Classical.choice, Quot.sound |
| C73 | `Url.Props.C73_append` | propext, Classical.choice, Quot.sound |
| C73 | `Url.Props.C73_least` | propext, Classical.choice, Quot.sound |
| C73 | `Url.Props.C73_prepend` | propext, Classical.choice, Quot.sound |
| C74 | `Url.Props.C74_loop_partial` | propext, Classical.choice, Quot.sound |
| C74 | `Url.Props.C74_erase_partial` | propext, Classical.choice, Quot.sound |
| C74 | `Url.Props.C74_last_false` | propext, Classical.choice, Quot.sound |
| C74 | `Url.Props.C74_false` | propext |
| C75 | `Url.Props.C75_insert_partial` | propext, Classical.choice, Quot.sound |
| C75 | `Url.Props.C75_assign_partial` | propext, Classical.choice, Quot.sound |
| C75 | `Url.Props.C75_false` | propext |
| C75 | `Url.Props.C75_reread_false` | propext |
