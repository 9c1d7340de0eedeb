# Axioms each property theorem depends on

Output of `#print axioms`, all theorems of `Pdf.Props`.

| theorem | axioms |
|---|---|
| `C01_object_total` | propext, Classical.choice, Quot.sound |
| `C02_string_read` | propext, Classical.choice, Quot.sound |
| `C02_string_roundtrip` | propext, Classical.choice, Quot.sound |
| `C03_hex_cases` | propext, Classical.choice, Quot.sound |
| `C03_hex_closed` | propext, Classical.choice, Quot.sound |
| `C03_hex_roundtrip` | propext, Classical.choice, Quot.sound |
| `C03_hex_unclosed` | propext, Classical.choice, Quot.sound |
| `C04_name_read` | propext, Classical.choice, Quot.sound |
| `C04_name_roundtrip` | propext, Classical.choice, Quot.sound |
| `C05_int_fails` | propext, Classical.choice, Quot.sound |
| `C05_int_modulo` | propext, Classical.choice, Quot.sound |
| `C05_number_exact` | propext, Classical.choice, Quot.sound |
| `C06_fraction_false` | propext, Classical.choice, Quot.sound |
| `C06_fraction_partial` | propext, Classical.choice, Quot.sound |
| `C06_tenths_partial` | propext, Classical.choice, Quot.sound |
| `C06_when_partial` | propext, Classical.choice, Quot.sound |
| `C07_object_read` | propext, Classical.choice, Quot.sound |
| `C08_indirect_partial` | propext, Classical.choice, Quot.sound |
| `C08_name_false` | propext, Classical.choice, Quot.sound |
| `C08_number_false` | propext, Classical.choice, Quot.sound |
| `C08_numbers` | propext, Classical.choice, Quot.sound |
| `C08_order_partial` | propext, Classical.choice, Quot.sound |
| `C08_reread_partial` | propext, Classical.choice, Quot.sound |
| `C08_string_false` | propext, Classical.choice, Quot.sound |
| `C09_array` | propext, Classical.choice, Quot.sound |
| `C09_hex` | propext, Classical.choice, Quot.sound |
| `C09_int_false` | propext, Quot.sound |
| `C09_int_partial` | propext, Classical.choice, Quot.sound |
| `C09_keyword` | propext, Classical.choice, Quot.sound |
| `C09_name` | propext, Classical.choice, Quot.sound |
| `C09_number` | propext, Classical.choice, Quot.sound |
| `C09_object` | propext, Classical.choice, Quot.sound |
| `C09_string` | propext, Classical.choice, Quot.sound |
| `C100_partial` | propext, Classical.choice, Quot.sound |
| `C100_secret_partial` | propext, Classical.choice, Quot.sound |
| `C101_false` | propext, Classical.choice, Quot.sound |
| `C101_wrong` | propext, Classical.choice, Quot.sound |
| `C102_false` | propext, Classical.choice, Quot.sound |
| `C102_partial` | propext, Classical.choice, Quot.sound |
| `C102_secret_partial` | propext, Classical.choice, Quot.sound |
| `C103_false` | propext, Classical.choice, Quot.sound |
| `C103_partial` | propext, Classical.choice, Quot.sound |
| `C103_secret_partial` | propext, Classical.choice, Quot.sound |
| `C103_wrong` | propext, Classical.choice, Quot.sound |
| `C10_complete` | propext |
| `C10_messages` | propext, Classical.choice, Quot.sound |
| `C11_array` | propext, Classical.choice, Quot.sound |
| `C11_cut_off` | propext, Classical.choice, Quot.sound |
| `C11_dictionary` | propext, Classical.choice, Quot.sound |
| `C11_stream_false` | propext |
| `C11_string` | propext, Classical.choice, Quot.sound |
| `C12_dictionary` | propext, Classical.choice, Quot.sound |
| `C13_number` | propext, Classical.choice, Quot.sound |
| `C13_reference` | propext, Classical.choice, Quot.sound |
| `C13_token` | propext, Classical.choice, Quot.sound |
| `C14_getters` | propext, Classical.choice, Quot.sound |
| `C14_next_object` | propext, Classical.choice, Quot.sound |
| `C14_offset` | propext, Classical.choice, Quot.sound |
| `C15_chain` | propext, Classical.choice, Quot.sound |
| `C15_cycle` | propext, Classical.choice, Quot.sound |
| `C15_not_reference` | propext, Classical.choice, Quot.sound |
| `C15_path` | propext, Classical.choice, Quot.sound |
| `C15_terminates` | propext, Classical.choice, Quot.sound |
| `C16_null` | propext, Classical.choice, Quot.sound |
| `C17_array` | propext, Classical.choice, Quot.sound |
| `C17_dictionary` | propext, Classical.choice, Quot.sound |
| `C17_reference` | propext |
| `C17_stream` | propext, Classical.choice, Quot.sound |
| `C17_total` | propext |
| `C18_stream_partial` | propext, Classical.choice, Quot.sound |
| `C18_unclosed_partial` | propext, Classical.choice, Quot.sound |
| `C19_buffer_partial` | propext, Classical.choice, Quot.sound |
| `C19_false` | propext, Quot.sound |
| `C20_terminates_false` | propext, Classical.choice, Quot.sound |
| `C20_terminates_partial` | propext, Classical.choice, Quot.sound |
| `C21_file` | propext, Classical.choice, Quot.sound |
| `C21_none` | propext, Classical.choice, Quot.sound |
| `C21_order` | propext, Classical.choice, Quot.sound |
| `C21_reachable` | propext, Classical.choice, Quot.sound |
| `C21_returns` | propext, Classical.choice, Quot.sound |
| `C21_terminates` | propext, Classical.choice, Quot.sound |
| `C22_endless_false` | propext, Classical.choice, Quot.sound |
| `C22_false` | propext, Classical.choice, Quot.sound |
| `C22_partial` | propext, Classical.choice, Quot.sound |
| `C22_returns_partial` | propext, Classical.choice, Quot.sound |
| `C23_distinct` | propext, Classical.choice, Quot.sound |
| `C23_once` | propext, Classical.choice, Quot.sound |
| `C23_terminates_false` | propext, Classical.choice, Quot.sound |
| `C23_terminates_partial` | propext, Classical.choice, Quot.sound |
| `C24_load` | propext, Classical.choice, Quot.sound |
| `C24_plan` | propext, Classical.choice, Quot.sound |
| `C24_startxref` | propext, Classical.choice, Quot.sound |
| `C24_stream` | propext, Classical.choice, Quot.sound |
| `C24_table` | propext, Classical.choice, Quot.sound |
| `C25_bad_false` | propext, Classical.choice, Quot.sound |
| `C25_bad_partial` | propext, Classical.choice, Quot.sound |
| `C25_fields` | propext, Classical.choice, Quot.sound |
| `C25_good_false` | propext, Classical.choice, Quot.sound |
| `C25_good_partial` | propext, Classical.choice, Quot.sound |
| `C25_header` | propext, Classical.choice, Quot.sound |
| `C25_unmarked` | propext, Classical.choice, Quot.sound |
| `C26_known` | propext, Classical.choice, Quot.sound |
| `C26_missing` | propext, Classical.choice, Quot.sound |
| `C27_exact` | propext, Quot.sound |
| `C27_no_panic_partial` | propext, Quot.sound |
| `C27_panic_false` | propext, Classical.choice, Quot.sound |
| `C27_roundtrip` | propext, Classical.choice, Quot.sound |
| `C27_short` | propext, Quot.sound |
| `C27_value` | propext, Quot.sound |
| `C28_asciiHex_inverts` | propext, Classical.choice, Quot.sound |
| `C29_ascii85_inverts_false` | propext |
| `C29_ascii85_inverts_partial` | propext, Classical.choice, Quot.sound |
| `C30_runLength_bounded` | propext, Quot.sound |
| `C30_runLength_inverts` | propext, Quot.sound |
| `C31_png_inverts_false` | propext |
| `C31_png_inverts_partial` | propext, Classical.choice, Quot.sound |
| `C32_tiff_inverts` | propext, Classical.choice, Quot.sound |
| `C33_compose` | propext, Quot.sound |
| `C33_direct` | propext, Quot.sound |
| `C33_empty` | propext |
| `C33_names` | propext |
| `C33_order` | propext, Classical.choice, Quot.sound |
| `C33_unknown` | propext |
| `C34_decode_false` | propext, Quot.sound |
| `C34_decode_partial` | propext, Quot.sound |
| `C34_no_panic_false` | propext |
| `C34_no_panic_partial` | propext, Quot.sound |
| `C35_cipher` | propext, Quot.sound |
| `C35_decrypt` | propext, Quot.sound |
| `C35_object` | propext, Classical.choice, Quot.sound |
| `C35_stream` | propext, Quot.sound |
| `C36_aes_partial` | propext, Quot.sound |
| `C36_false` | propext, Quot.sound |
| `C36_other_partial` | propext, Quot.sound |
| `C37_low_bits` | propext, Quot.sound |
| `C37_object_keys` | propext, Quot.sound |
| `C38_accepts` | propext, Quot.sound |
| `C38_refuses` | propext, Quot.sound |
| `C39_unchanged` | propext, Quot.sound |
| `C40_filter_length_false` | propext, Quot.sound |
| `C40_partial` | propext, Classical.choice, Quot.sound |
| `C40_short_U_false` | propext, Quot.sound |
| `C41_first_32` | propext, Classical.choice, Quot.sound |
| `C42_EFF_false` | propext, Classical.choice, Quot.sound |
| `C42_default_false` | propext, Classical.choice, Quot.sound |
| `C42_encrypt_dictionary` | propext, Classical.choice, Quot.sound |
| `C42_named_partial` | propext, Quot.sound |
| `C42_stream_filter` | propext |
| `C42_unencrypted` | propext, Classical.choice, Quot.sound |
| `C43_append` | propext, Classical.choice, Quot.sound |
| `C43_decode` | propext, Classical.choice, Quot.sound |
| `C43_default` | propext, Classical.choice, Quot.sound |
| `C43_split` | propext, Quot.sound |
| `C43_width` | propext, Classical.choice, Quot.sound |
| `C44_array_false` | propext, Classical.choice, Quot.sound |
| `C44_false` | propext, Classical.choice, Quot.sound |
| `C44_first_partial` | propext, Classical.choice, Quot.sound |
| `C44_lookup` | propext, Classical.choice, Quot.sound |
| `C44_terminates_false` | propext, Classical.choice, Quot.sound |
| `C44_terminates_partial` | propext, Classical.choice, Quot.sound |
| `C44_text` | propext, Classical.choice, Quot.sound |
| `C44_width` | propext, Classical.choice, Quot.sound |
| `C45_exists` | propext, Quot.sound |
| `C45_page` | propext, Classical.choice, Quot.sound |
| `C45_page_parts` | propext, Classical.choice, Quot.sound |
| `C45_pieces` | propext, Classical.choice, Quot.sound |
| `C45_returns` | propext, Classical.choice, Quot.sound |
| `C45_text` | propext, Classical.choice, Quot.sound |
| `C46_false` | propext, Classical.choice, Quot.sound |
| `C46_partial` | propext, Classical.choice, Quot.sound |
| `C47_exact_meets` | propext, Classical.choice, Quot.sound |
| `C47_exact_partial` | propext, Classical.choice, Quot.sound |
| `C47_false` | propext, Classical.choice, Quot.sound |
| `C47_partial` | propext, Classical.choice, Quot.sound |
| `C48_action` | propext, Classical.choice, Quot.sound |
| `C48_action_string` | propext, Classical.choice, Quot.sound |
| `C48_embedded` | propext, Classical.choice, Quot.sound |
| `C48_false` | propext, Classical.choice, Quot.sound |
| `C48_nameless` | propext, Classical.choice, Quot.sound |
| `C48_params` | propext, Classical.choice, Quot.sound |
| `C48_plain` | propext, Classical.choice, Quot.sound |
| `C48_url` | propext, Classical.choice, Quot.sound |
| `C48_url_none` | propext, Classical.choice, Quot.sound |
| `C49_contents` | propext, Classical.choice, Quot.sound |
| `C49_false` | propext, Classical.choice, Quot.sound |
| `C49_load` | propext, Classical.choice, Quot.sound |
| `C49_load_merge` | propext, Quot.sound |
| `C49_load_repair` | propext, Quot.sound |
| `C49_partial` | propext, Classical.choice, Quot.sound |
| `C50_directory` | propext, Classical.choice, Quot.sound |
| `C50_unreadable` | propext, Classical.choice, Quot.sound |
| `C51_false` | propext, Classical.choice, Quot.sound |
| `C51_partial` | propext, Classical.choice, Quot.sound |
| `C52_refuses` | propext, Classical.choice, Quot.sound |
| `C52_runs` | propext, Classical.choice, Quot.sound |
| `C53_closed_partial` | propext, Classical.choice, Quot.sound |
| `C53_false` | propext, Classical.choice, Quot.sound |
| `C54_dump` | propext, Quot.sound |
| `C54_parse` | propext, Classical.choice, Quot.sound |
| `C55_false` | propext, Classical.choice, Quot.sound |
| `C55_partial` | propext, Classical.choice, Quot.sound |
| `C56_bits` | propext, Classical.choice, Quot.sound |
| `C57_object_unread_only` | propext, Classical.choice, Quot.sound |
| `C58_object` | propext, Classical.choice, Quot.sound |
| `C59_stream_partial` | propext, Classical.choice, Quot.sound |
| `C60_false` | propext, Classical.choice, Quot.sound |
| `C60_zero` | propext, Classical.choice, Quot.sound |
| `C61_false` | propext, Classical.choice, Quot.sound |
| `C61_partial` | propext, Classical.choice, Quot.sound |
| `C62_closed` | propext, Classical.choice, Quot.sound |
| `C62_create_fails` | propext, Classical.choice, Quot.sound |
| `C63_exact` | propext, Classical.choice, Quot.sound |
| `C63_none` | propext, Classical.choice, Quot.sound |
| `C63_once` | propext, Classical.choice, Quot.sound |
| `C63_order` | propext, Classical.choice, Quot.sound |
| `C64_array_partial` | propext, Classical.choice, Quot.sound |
| `C64_false` | propext, Classical.choice, Quot.sound |
| `C64_none` | propext, Classical.choice, Quot.sound |
| `C64_stream_partial` | propext, Classical.choice, Quot.sound |
| `C65_embedded` | propext, Classical.choice, Quot.sound |
| `C65_urls` | propext, Classical.choice, Quot.sound |
| `C66_actions` | propext, Classical.choice, Quot.sound |
| `C67_meets` | propext, Classical.choice, Quot.sound |
| `C67_report` | propext, Classical.choice, Quot.sound |
| `C68_false` | propext, Classical.choice, Quot.sound |
| `C68_partial` | propext, Classical.choice, Quot.sound |
| `C69_program` | propext, Classical.choice, Quot.sound |
| `C69_verbose` | propext, Classical.choice, Quot.sound |
| `C70_bounds` | propext, Classical.choice, Quot.sound |
| `C70_false` | propext, Classical.choice, Quot.sound |
| `C70_partial` | propext, Classical.choice, Quot.sound |
| `C71_raw` | propext, Classical.choice, Quot.sound |
| `C72_read` | propext, Classical.choice, Quot.sound |
| `C73_false` | propext, Classical.choice, Quot.sound |
| `C73_printed` | propext, Classical.choice, Quot.sound |
| `C73_raw_partial` | propext, Classical.choice, Quot.sound |
| `C74_false` | propext, Classical.choice, Quot.sound |
| `C74_meant_partial` | propext, Classical.choice, Quot.sound |
| `C74_read_partial` | propext, Classical.choice, Quot.sound |
| `C75_found_partial` | propext, Classical.choice, Quot.sound |
| `C75_means` | propext, Classical.choice, Quot.sound |
| `C75_partial` | propext, Classical.choice, Quot.sound |
| `C76_read_partial` | propext, Classical.choice, Quot.sound |
| `C76_report_partial` | propext, Classical.choice, Quot.sound |
| `C76_wrong` | propext, Classical.choice, Quot.sound |
| `C77_incomplete` | propext, Classical.choice, Quot.sound |
| `C77_unsupported` | propext, Classical.choice, Quot.sound |
| `C78_false` | propext, Classical.choice, Quot.sound |
| `C78_meant_partial` | propext, Classical.choice, Quot.sound |
| `C78_same_partial` | propext, Classical.choice, Quot.sound |
| `C79_error` | propext, Classical.choice, Quot.sound |
| `C79_steps` | propext, Classical.choice, Quot.sound |
| `C79_unique` | propext, Classical.choice, Quot.sound |
| `C80_false` | propext, Classical.choice, Quot.sound |
| `C80_null` | propext, Classical.choice, Quot.sound |
| `C81_read_partial` | propext, Classical.choice, Quot.sound |
| `C81_same_partial` | propext, Classical.choice, Quot.sound |
| `C82_false` | propext, Classical.choice, Quot.sound |
| `C82_partial` | propext, Classical.choice, Quot.sound |
| `C82_refused` | propext, Classical.choice, Quot.sound |
| `C83_false` | propext, Classical.choice, Quot.sound |
| `C83_null` | propext, Classical.choice, Quot.sound |
| `C84_exact_partial` | propext, Classical.choice, Quot.sound |
| `C84_exact_secret_partial` | propext, Classical.choice, Quot.sound |
| `C84_false` | propext, Classical.choice, Quot.sound |
| `C84_order_partial` | propext, Classical.choice, Quot.sound |
| `C84_partial` | propext, Classical.choice, Quot.sound |
| `C84_secret_partial` | propext, Classical.choice, Quot.sound |
| `C85_encrypt_false` | propext, Classical.choice, Quot.sound |
| `C85_false` | propext, Classical.choice, Quot.sound |
| `C85_partial` | propext, Classical.choice, Quot.sound |
| `C85_raw_partial` | propext, Classical.choice, Quot.sound |
| `C85_report_partial` | propext, Classical.choice, Quot.sound |
| `C86_false` | propext, Classical.choice, Quot.sound |
| `C86_partial` | propext, Classical.choice, Quot.sound |
| `C86_secret_partial` | propext, Classical.choice, Quot.sound |
| `C87_false` | propext, Classical.choice, Quot.sound |
| `C87_only_partial` | propext, Classical.choice, Quot.sound |
| `C87_partial` | propext, Classical.choice, Quot.sound |
| `C88_array_false` | propext, Classical.choice, Quot.sound |
| `C88_false` | propext, Classical.choice, Quot.sound |
| `C88_partial` | propext, Classical.choice, Quot.sound |
| `C88_secret_partial` | propext, Classical.choice, Quot.sound |
| `C89_false` | propext, Classical.choice, Quot.sound |
| `C89_partial` | propext, Classical.choice, Quot.sound |
| `C90_false` | propext, Classical.choice, Quot.sound |
| `C90_partial` | propext, Classical.choice, Quot.sound |
| `C90_secret_partial` | propext, Classical.choice, Quot.sound |
| `C91_decode` | propext, Classical.choice, Quot.sound |
| `C91_exists` | propext, Classical.choice, Quot.sound |
| `C91_plain` | propext, Classical.choice, Quot.sound |
| `C91_readers` | propext, Classical.choice, Quot.sound |
| `C92_decode` | propext, Classical.choice, Quot.sound |
| `C92_exact` | propext, Classical.choice, Quot.sound |
| `C92_exists` | propext, Classical.choice, Quot.sound |
| `C92_plain` | propext, Classical.choice, Quot.sound |
| `C92_reader` | propext, Classical.choice, Quot.sound |
| `C93_chain_partial` | propext, Classical.choice, Quot.sound |
| `C93_concrete` | propext |
| `C93_false` | propext |
| `C93_filter_partial` | propext, Classical.choice, Quot.sound |
| `C93_object_partial` | propext, Classical.choice, Quot.sound |
| `C93_predictor_false` | propext, Classical.choice, Quot.sound |
| `C93_secret_partial` | propext, Classical.choice, Quot.sound |
| `C94_false` | propext, Classical.choice, Quot.sound |
| `C94_raw_partial` | propext, Classical.choice, Quot.sound |
| `C94_read_partial` | propext, Classical.choice, Quot.sound |
| `C94_report_partial` | propext, Classical.choice, Quot.sound |
| `C95_false` | propext, Classical.choice, Quot.sound |
| `C95_partial` | propext, Classical.choice, Quot.sound |
| `C96_false` | propext, Classical.choice, Quot.sound |
| `C96_partial` | propext, Classical.choice, Quot.sound |
| `C97_false` | propext, Classical.choice, Quot.sound |
| `C97_partial` | propext, Classical.choice, Quot.sound |
| `C98_false` | propext, Classical.choice, Quot.sound |
| `C98_partial` | propext, Classical.choice, Quot.sound |
| `C98_wrong` | propext, Classical.choice, Quot.sound |
| `C99_false` | propext, Classical.choice, Quot.sound |
| `C99_partial` | propext, Classical.choice, Quot.sound |
| `C99_secret_partial` | propext, Classical.choice, Quot.sound |
