# Axioms of every theorem of the manifest

Generated by `tools/axioms.py` (`#print axioms`).

## no axioms  (1 theorems)

- `SunPhy.C151.C151_start`

## Classical.choice, Quot.sound, propext  (467 theorems)

- `SunPhy.C01.C01_lsb_first`
- `SunPhy.C01.C01_injective`
- `SunPhy.C02.C02_accepts_iff`
- `SunPhy.C02.C02_exceptions`
- `SunPhy.C02.C02_bytesToIQ`
- `SunPhy.C02.C02_empty`
- `SunPhy.C03.C03_bitsToIQ`
- `SunPhy.C03.C03_validation`
- `SunPhy.C03.C03_accepts_iff`
- `SunPhy.C03.C03_identity`
- `SunPhy.C05.C05_period`
- `SunPhy.C05.C05_ones`
- `SunPhy.C05.C05_never_zero`
- `SunPhy.C05.C05_zero_seed`
- `SunPhy.C05.C05_recurrence`
- `SunPhy.C05.C05_integer_seed`
- `SunPhy.C05.C05_closed_form`
- `SunPhy.C05.C05_default`
- `SunPhy.C09.C09_unit_power`
- `SunPhy.C10.C10_seed`
- `SunPhy.C10.C10_reset`
- `SunPhy.C13.C13_half`
- `SunPhy.C13.C13_three_quarter`
- `SunPhy.C14.C14_layout`
- `SunPhy.C14.C14_injective`
- `SunPhy.C15.C15_header`
- `SunPhy.C15.C15_header_all`
- `SunPhy.C15.C15_bitsToIQ`
- `SunPhy.C15.C15_bytesToIQ`
- `SunPhy.C16.C16_crc`
- `SunPhy.C16.C16_unique`
- `SunPhy.C16.C16_register`
- `SunPhy.C17.C17_ofdm`
- `SunPhy.C17.C17_oqpsk`
- `SunPhy.C17.C17_detects`
- `SunPhy.C17.C17_oqpsk_detects`
- `SunPhy.C18.C18_exact`
- `SunPhy.C18.C18_partial`
- `SunPhy.C18.C18_false`
- `SunPhy.C19.C19_reversible`
- `SunPhy.C19.C19_header`
- `SunPhy.C20.C20_partial`
- `SunPhy.C20.C20_actual`
- `SunPhy.C21.C21_symbols`
- `SunPhy.C22.C22_partial`
- `SunPhy.C22.C22_octets`
- `SunPhy.C22.C22_no_pad`
- `SunPhy.C22.C22_no_pad_false`
- `SunPhy.C23.C23_layout`
- `SunPhy.C23.C23_no_pilots`
- `SunPhy.C23.C23_success_implies_valid`
- `SunPhy.C23.C23_mr_ofdm`
- `SunPhy.C24.C24_concat`
- `SunPhy.C24.C24_handover`
- `SunPhy.C24.C24_frame`
- `SunPhy.C25.C25_segments`
- `SunPhy.C25.C25_recover`
- `SunPhy.C25.C25_magnitude`
- `SunPhy.C25.C25_refused`
- `SunPhy.C26.C26_accepts`
- `SunPhy.C26.C26_inverse`
- `SunPhy.C26.C26_injective`
- `SunPhy.C26.C26_energy`
- `SunPhy.C27.C27_symbol`
- `SunPhy.C27.C27_stream`
- `SunPhy.C27.C27_degenerate`
- `SunPhy.C28.C28_size`
- `SunPhy.C28.C28_duration`
- `SunPhy.C29.C29_training`
- `SunPhy.C29.C29_ltf_tones`
- `SunPhy.C30.C30_accepts`
- `SunPhy.C30.C30_supported`
- `SunPhy.C30.C30_unsupported`
- `SunPhy.C30.C30_mcs7`
- `SunPhy.C30.C30_value_error_partial`
- `SunPhy.C31.C31_success`
- `SunPhy.C31.C31_injective`
- `SunPhy.C32.C32_ofdm`
- `SunPhy.C32.C32_fsk`
- `SunPhy.C32.C32_oqpsk`
- `SunPhy.C33.C33_accepts`
- `SunPhy.C33.C33_errors`
- `SunPhy.C33.C33_ranges`
- `SunPhy.C34.C34_shr`
- `SunPhy.C34.C34_frames_differ`
- `SunPhy.C35.C35_header`
- `SunPhy.C35.C35_read_back`
- `SunPhy.C35.C35_frame`
- `SunPhy.C35.C35_too_long`
- `SunPhy.C37.C37_multiple`
- `SunPhy.C37.C37_frames`
- `SunPhy.C38.C38_distance`
- `SunPhy.C38.C38_injective`
- `SunPhy.C38.C38_corrects_two`
- `SunPhy.C37.C39_accepts`
- `SunPhy.C37.C39_involution`
- `SunPhy.C37.C39_permutation`
- `SunPhy.C35.C40_whitening`
- `SunPhy.C41.C41_receiver`
- `SunPhy.C41.C41_octets`
- `SunPhy.C41.C41_injective`
- `SunPhy.C42.C42_waveform`
- `SunPhy.C42.C42_demodulation`
- `SunPhy.C42.C42_injective`
- `SunPhy.C42.C42_messages`
- `SunPhy.C43.C43_boundary_iff`
- `SunPhy.C43.C43_integer_index_partial`
- `SunPhy.C43.C43_2fsk_iff`
- `SunPhy.C43.C43_4fsk_necessary`
- `SunPhy.C43.C43_4fsk_iff`
- `SunPhy.C44.C44_exact_partial`
- `SunPhy.C44.C44_length`
- `SunPhy.C44.C44_outcome`
- `SunPhy.C44.C44_double_fails`
- `SunPhy.C45.C45_arguments_partial`
- `SunPhy.C45.C45_header_fails`
- `SunPhy.C63.C46_no_signal`
- `SunPhy.C47.C47_header`
- `SunPhy.C47.C47_too_long`
- `SunPhy.C47.C47_read_back`
- `SunPhy.C47.C47_distance`
- `SunPhy.C47.C47_negative`
- `SunPhy.C47.C47_iff`
- `SunPhy.C50.C50_phr`
- `SunPhy.C50.C50_one_block_partial`
- `SunPhy.C50.C50_lost`
- `SunPhy.C50.C50_false`
- `SunPhy.C50.C50_total`
- `SunPhy.C63.C53_exact`
- `SunPhy.C63.C53_one_bit_partial`
- `SunPhy.C63.C53_false`
- `SunPhy.C63.C54_false`
- `SunPhy.C63.C55_exact`
- `SunPhy.C63.C55_uncoded_partial`
- `SunPhy.C56.C56_actual`
- `SunPhy.C56.C56_distinct_partial`
- `SunPhy.C56.C56_false`
- `SunPhy.C57.C57_structure`
- `SunPhy.C57.C57_recover`
- `SunPhy.C57.C57_size`
- `SunPhy.C57.C57_injective`
- `SunPhy.C60.C57_api`
- `SunPhy.C60.C58_api`
- `SunPhy.C59.C59_length`
- `SunPhy.C59.C59_exact`
- `SunPhy.C59.C59_short_partial`
- `SunPhy.C59.C59_false`
- `SunPhy.C60.C60_waveform`
- `SunPhy.C60.C60_demodulate`
- `SunPhy.C60.C60_injective`
- `SunPhy.C60.C60_api`
- `SunPhy.C60.C60_api_demodulate`
- `SunPhy.C60.C61_false`
- `SunPhy.C60.C61_aligned`
- `SunPhy.C60.C61_api`
- `SunPhy.C62.C62_half_sine`
- `SunPhy.C62.C62_singular`
- `SunPhy.C62.C62_finite_partial`
- `SunPhy.C62.C62_false`
- `SunPhy.C62.C62_limit`
- `SunPhy.C62.C62_nonzero`
- `SunPhy.C63.C63_frame_size`
- `SunPhy.C44.C65_frame_size`
- `SunPhy.C60.C66_exact_partial`
- `SunPhy.C60.C66_false`
- `SunPhy.C60.C66_api`
- `SunPhy.C67.C67_reference`
- `SunPhy.C67.C67_bytes`
- `SunPhy.C67.C67_size`
- `SunPhy.C68.C68_reference`
- `SunPhy.C68.C68_bytes`
- `SunPhy.C69.C69_bits`
- `SunPhy.C69.C69_reference`
- `SunPhy.C69.C69_bytes`
- `SunPhy.C70.C70_accepts`
- `SunPhy.C70.C70_errors`
- `SunPhy.C70.C70_mr_ofdm`
- `SunPhy.C71.C73_tail`
- `SunPhy.C71.C79_length_only`
- `SunPhy.C60.C82_api`
- `SunPhy.C60.C84_api`
- `SunPhy.C71.C84_frequency`
- `SunPhy.C60.C86_api`
- `SunPhy.C87.C87_fsk`
- `SunPhy.C87.C87_fsk_bitsToIQ`
- `SunPhy.C87.C87_ofdm`
- `SunPhy.C87.C87_oqpsk`
- `SunPhy.C87.C87_oqpsk_bitsToIQ`
- `SunPhy.C88.C88_distance`
- `SunPhy.C88.C88_corrects_two`
- `SunPhy.C89.C89_distance`
- `SunPhy.C90.C90_window`
- `SunPhy.C90.C90_frame`
- `SunPhy.C91.C91_energy`
- `SunPhy.C92.C92_qpsk_1d`
- `SunPhy.C92.C92_get`
- `SunPhy.C92.C92_columns`
- `SunPhy.C93.C93_accepts`
- `SunPhy.C93.C93_columns`
- `SunPhy.C93.C93_samples`
- `SunPhy.C93.C93_bits`
- `SunPhy.C94.C94_ofdm`
- `SunPhy.C94.C94_oqpsk`
- `SunPhy.C94.C94_double`
- `SunPhy.C95.C95_ofdm`
- `SunPhy.C95.C95_fsk`
- `SunPhy.C96.C96_bits`
- `SunPhy.C96.C96_octets`
- `SunPhy.C97.C97_distance`
- `SunPhy.C97.C97_noise`
- `SunPhy.C98.C98_header`
- `SunPhy.C98.C98_messages`
- `SunPhy.C98.C98_noise`
- `SunPhy.C99.C99_symbols`
- `SunPhy.C99.C99_coded`
- `SunPhy.C99.C99_noise`
- `SunPhy.C99.C99_any`
- `SunPhy.C100.C100_bits`
- `SunPhy.C100.C100_octets`
- `SunPhy.C100.C100_clean`
- `SunPhy.C101.C101_bits`
- `SunPhy.C101.C101_octets`
- `SunPhy.C101.C101_clean`
- `SunPhy.C102.C102_bits`
- `SunPhy.C102.C102_octets`
- `SunPhy.C102.C102_short`
- `SunPhy.C102.C102_clean`
- `SunPhy.C103.C103_built`
- `SunPhy.C103.C103_accepts_symbols`
- `SunPhy.C103.C103_accepts`
- `SunPhy.C103.C103_default`
- `SunPhy.C103.C103_signal`
- `SunPhy.C103.C103_empty`
- `SunPhy.C104.C104_positive`
- `SunPhy.C104.C104_distinct`
- `SunPhy.C104.C104_no_data`
- `SunPhy.C105.C105_oqpsk`
- `SunPhy.C105.C105_ofdm`
- `SunPhy.C105.C105_fsk`
- `SunPhy.C105.C105_bytes`
- `SunPhy.C106.C106_symbol`
- `SunPhy.C106.C106_one_bit`
- `SunPhy.C106.C106_header`
- `SunPhy.C106.C106_oqpsk_header`
- `SunPhy.C107.C107_bits`
- `SunPhy.C107.C107_first`
- `SunPhy.C107.C107_samples`
- `SunPhy.C108.C108_reference`
- `SunPhy.C109.C109_failures`
- `SunPhy.C109.C109_samples`
- `SunPhy.C109.C109_octets`
- `SunPhy.C109.C109_decoded`
- `SunPhy.C110.C110_distance`
- `SunPhy.C110.C110_present`
- `SunPhy.C110.C110_sync`
- `SunPhy.C110.C110_received`
- `SunPhy.C111.C111_bits`
- `SunPhy.C111.C111_octets`
- `SunPhy.C111.C111_decoded`
- `SunPhy.C111.C111_not_finite`
- `SunPhy.C111.C111_wrong_sign`
- `SunPhy.C112.C112_bits`
- `SunPhy.C112.C112_octets`
- `SunPhy.C112.C112_decoded`
- `SunPhy.C113.C113_separate`
- `SunPhy.C113.C113_fsk_after`
- `SunPhy.C113.C113_oqpsk_after`
- `SunPhy.C113.C113_ofdm_after`
- `SunPhy.C113.C113_fsk_race`
- `SunPhy.C113.C113_oqpsk_race`
- `SunPhy.C113.C113_ofdm_race`
- `SunPhy.C113.C113_ofdm_wrong`
- `SunPhy.C114.C114_typed`
- `SunPhy.C114.C114_success`
- `SunPhy.C114.C114_exceptions`
- `SunPhy.C114.C114_spreading`
- `SunPhy.C114.C114_typed_bytes`
- `SunPhy.C115.C115_bits_iff`
- `SunPhy.C115.C115_bits_values`
- `SunPhy.C115.C115_bits_nan`
- `SunPhy.C115.C115_bits_finite`
- `SunPhy.C115.C115_octets_list`
- `SunPhy.C115.C115_octets_array`
- `SunPhy.C115.C115_octets_x86`
- `SunPhy.C115.C115_octets_arm`
- `SunPhy.C115.C115_octets_finite`
- `SunPhy.C115.C115_bytesToIQ`
- `SunPhy.C115.C115_fsk_rate`
- `SunPhy.C115.C115_fsk_index`
- `SunPhy.C115.C115_fsk_finite`
- `SunPhy.C115.C115_bytesToIQ_finite`
- `SunPhy.C115.C115_bytesToIQ_arm`
- `SunPhy.C116.C116_exact`
- `SunPhy.C116.C116_header`
- `SunPhy.C116.C116_short`
- `SunPhy.C116.C116_contained`
- `SunPhy.C116.C116_messages`
- `SunPhy.C116.C116_noise`
- `SunPhy.C116.C116_bound`
- `SunPhy.C117.C117_program`
- `SunPhy.C117.C117_call`
- `SunPhy.C117.C117_separate`
- `SunPhy.C117.C117_write`
- `SunPhy.C118.C118_looks`
- `SunPhy.C118.C118_untouched`
- `SunPhy.C118.C118_call`
- `SunPhy.C118.C118_construct`
- `SunPhy.C119.C119_distance`
- `SunPhy.C119.C119_early`
- `SunPhy.C119.C119_late`
- `SunPhy.C119.C119_clean`
- `SunPhy.C120.C120_bits`
- `SunPhy.C120.C120_octets`
- `SunPhy.C120.C120_clean`
- `SunPhy.C120.C120_shift`
- `SunPhy.C121.C121_bits`
- `SunPhy.C121.C121_octets`
- `SunPhy.C121.C121_clean`
- `SunPhy.C121.C121_noise`
- `SunPhy.C122.C122_early`
- `SunPhy.C122.C122_late`
- `SunPhy.C122.C122_octets`
- `SunPhy.C122.C122_clean`
- `SunPhy.C123.C123_dsss`
- `SunPhy.C123.C123_mdsss`
- `SunPhy.C123.C123_short`
- `SunPhy.C123.C123_long`
- `SunPhy.C124.C124_early`
- `SunPhy.C124.C124_late`
- `SunPhy.C124.C124_octets`
- `SunPhy.C124.C124_clean`
- `SunPhy.C125.C125_bits`
- `SunPhy.C125.C125_octets`
- `SunPhy.C125.C125_clean`
- `SunPhy.C125.C125_flat`
- `SunPhy.C126.C126_bits`
- `SunPhy.C126.C126_octets`
- `SunPhy.C126.C126_clean`
- `SunPhy.C127.C127_bits`
- `SunPhy.C127.C127_octets`
- `SunPhy.C127.C127_clean`
- `SunPhy.C128.C128_to_bin_nonneg`
- `SunPhy.C128.C128_to_bin_negative`
- `SunPhy.C128.C128_to_bin_accepts`
- `SunPhy.C128.C128_to_bin_nat`
- `SunPhy.C128.C128_to_int`
- `SunPhy.C128.C128_tables`
- `SunPhy.C129.C129_half`
- `SunPhy.C129.C129_seed`
- `SunPhy.C129.C129_three_quarter`
- `SunPhy.C129.C129_stuck`
- `SunPhy.C130.C130_same`
- `SunPhy.C130.C130_constructor`
- `SunPhy.C130.C130_announced`
- `SunPhy.C130.C130_quiet`
- `SunPhy.C130.C130_ofdm_lines`
- `SunPhy.C130.C130_ofdm_sizes`
- `SunPhy.C130.C130_oqpsk_lines`
- `SunPhy.C130.C130_oqpsk_refused`
- `SunPhy.C130.C130_modulator_lines`
- `SunPhy.C130.C130_bytes`
- `SunPhy.C131.C131_ofdm`
- `SunPhy.C131.C131_ofdm_unique`
- `SunPhy.C131.C131_fsk`
- `SunPhy.C131.C131_fsk_unique`
- `SunPhy.C131.C131_oqpsk`
- `SunPhy.C131.C131_oqpsk_unique`
- `SunPhy.C132.C132_symbols`
- `SunPhy.C132.C132_long`
- `SunPhy.C132.C132_short`
- `SunPhy.C132.C132_mean`
- `SunPhy.C133.C133_octets`
- `SunPhy.C133.C133_clean`
- `SunPhy.C133.C133_bits`
- `SunPhy.C133.C133_unique`
- `SunPhy.C134.C134_unique`
- `SunPhy.C134.C134_bits`
- `SunPhy.C134.C134_mixed`
- `SunPhy.C134.C134_plain`
- `SunPhy.C134.C134_plain_bits`
- `SunPhy.C135.C135_alike`
- `SunPhy.C135.C135_exact`
- `SunPhy.C135.C135_octets`
- `SunPhy.C136.C136_first`
- `SunPhy.C136.C136_kind`
- `SunPhy.C136.C136_signal`
- `SunPhy.C136.C136_ofdm`
- `SunPhy.C137.C137_octets`
- `SunPhy.C137.C137_waves`
- `SunPhy.C137.C137_none`
- `SunPhy.C138.C138_kind`
- `SunPhy.C138.C138_ofdm`
- `SunPhy.C138.C138_first`
- `SunPhy.C138.C138_kind_machine`
- `SunPhy.C138.C138_ofdm_machine`
- `SunPhy.C139.C139_octets`
- `SunPhy.C139.C139_waves`
- `SunPhy.C140.C140_bits`
- `SunPhy.C140.C140_octets`
- `SunPhy.C140.C140_plain`
- `SunPhy.C140.C140_interleaved`
- `SunPhy.C140.C140_burst`
- `SunPhy.C141.C141_bits`
- `SunPhy.C141.C141_octets`
- `SunPhy.C141.C141_burst`
- `SunPhy.C142.C142_bits`
- `SunPhy.C142.C142_octets`
- `SunPhy.C142.C142_fading`
- `SunPhy.C143.C143_bits`
- `SunPhy.C143.C143_octets`
- `SunPhy.C143.C143_fading`
- `SunPhy.C144.C144_values`
- `SunPhy.C144.C144_bits`
- `SunPhy.C144.C144_ofdm`
- `SunPhy.C144.C144_fsk_refused`
- `SunPhy.C144.C144_fsk_thirds`
- `SunPhy.C144.C144_fsk_nonrecursive`
- `SunPhy.C145.C145_octets`
- `SunPhy.C145.C145_one`
- `SunPhy.C145.C145_wave`
- `SunPhy.C146.C146_dsss_refused`
- `SunPhy.C146.C146_dsss_sent`
- `SunPhy.C146.C146_places`
- `SunPhy.C146.C146_mdsss`
- `SunPhy.C147.C147_small`
- `SunPhy.C147.C147_refused`
- `SunPhy.C147.C147_powers`
- `SunPhy.C147.C147_accepted`
- `SunPhy.C148.C148_fsk_bits`
- `SunPhy.C148.C148_energy`
- `SunPhy.C148.C148_fsk`
- `SunPhy.C148.C148_oqpsk`
- `SunPhy.C148.C148_ofdm`
- `SunPhy.C149.C149_ofdm`
- `SunPhy.C149.C149_fsk`
- `SunPhy.C150.C150_exact`
- `SunPhy.C150.C150_attained`
- `SunPhy.C150.C150_sixteen`
- `SunPhy.C150.C150_least`
- `SunPhy.C150.C150_six`
- `SunPhy.C150.C150_five`
- `SunPhy.C150.C150_not_differences`
- `SunPhy.C151.C151_flat`
- `SunPhy.C151.C151_other`
- `SunPhy.C151.C151_refused`
- `SunPhy.C152.C152_fsk`
- `SunPhy.C152.C152_integer`
- `SunPhy.C152.C152_half`
- `SunPhy.C152.C152_half_integer`
- `SunPhy.C152.C152_differences`
- `SunPhy.C152.C152_quarter`
- `SunPhy.C152.C152_closest`
- `SunPhy.C152.C152_oqpsk`
- `SunPhy.C152.C152_half_sine`
- `SunPhy.C152.C152_long`
- `SunPhy.C153.C153_ofdm`
- `SunPhy.C153.C153_ofdm_attained`
- `SunPhy.C153.C153_fsk`
- `SunPhy.C153.C153_fsk_bits`
- `SunPhy.C153.C153_dsss`
- `SunPhy.C153.C153_dsss_attained`
- `SunPhy.C153.C153_mdsss`
- `SunPhy.C154.C154_multipath`
- `SunPhy.C154.C154_early`
- `SunPhy.C154.C154_late`
- `SunPhy.C154.C154_oscillator`
- `SunPhy.C154.C154_octets`

## Quot.sound, propext  (55 theorems)

- `SunPhy.C04.C04_to_bin`
- `SunPhy.C04.C04_inverse_partial`
- `SunPhy.C04.C04_same_flag_reverses`
- `SunPhy.C05.C05_output_of_nextN`
- `SunPhy.C06.C06_refines_tape`
- `SunPhy.C06.C06_reset`
- `SunPhy.C06.C06_reset_seed`
- `SunPhy.C06.C06_current_value`
- `SunPhy.C07.C07_keystream`
- `SunPhy.C07.C07_involution`
- `SunPhy.C07.C07_differences`
- `SunPhy.C08.C08_levels`
- `SunPhy.C08.C08_reversible`
- `SunPhy.C08.C08_columns`
- `SunPhy.C08.C08_gray`
- `SunPhy.C10.C10_taps`
- `SunPhy.C10.C10_AB`
- `SunPhy.C11.C11_half`
- `SunPhy.C11.C11_three_quarter`
- `SunPhy.C12.C12_errors`
- `SunPhy.C12.C12_punctured`
- `SunPhy.C12.C12_injective`
- `SunPhy.C14.C14_sizes`
- `SunPhy.C19.C19_payload_blocks`
- `SunPhy.C20.C20_qam16_false`
- `SunPhy.C21.C21_padding`
- `SunPhy.C21.C21_bits_per_symbol`
- `SunPhy.C23.C23_read_back`
- `SunPhy.C34.C34_sfd_unique`
- `SunPhy.C36.C36_terminated`
- `SunPhy.C36.C36_pad_independent`
- `SunPhy.C37.C37_size`
- `SunPhy.C38.C38_systematic`
- `SunPhy.C48.C48_running_xor`
- `SunPhy.C48.C48_recover`
- `SunPhy.C48.C48_injective`
- `SunPhy.C48.C48_restart`
- `SunPhy.C49.C49_phr`
- `SunPhy.C49.C49_psdu`
- `SunPhy.C51.C52_spread`
- `SunPhy.C51.C52_recover`
- `SunPhy.C51.C52_injective`
- `SunPhy.C36.C64_nrnsc`
- `SunPhy.C36.C64_rsc`
- `SunPhy.C71.C85_order`
- `SunPhy.C92.C92_bpsk`
- `SunPhy.C92.C92_qpsk_2d`
- `SunPhy.C92.C92_qam16`
- `SunPhy.C92.C92_unsupported`
- `SunPhy.C103.C103_refused`
- `SunPhy.C114.C114_constructor`
- `SunPhy.C128.C128_round_trip`
- `SunPhy.C128.C128_from_bitstring`
- `SunPhy.C129.C129_nat`
- `SunPhy.C148.C148_zero`

## propext  (12 theorems)

- `SunPhy.C04.C04_same_flag_false`
- `SunPhy.C06.C06_chunking`
- `SunPhy.C30.C30_errors`
- `SunPhy.C38.C38_distance_sharp`
- `SunPhy.C45.C45_no_signal`
- `SunPhy.C63.C46_constructor`
- `SunPhy.C51.C51_tables`
- `SunPhy.C51.C51_complementary`
- `SunPhy.C57.C58_pilot_partial`
- `SunPhy.C57.C58_2450`
- `SunPhy.C71.C86_pilots`
- `SunPhy.C151.C151_constructor`
