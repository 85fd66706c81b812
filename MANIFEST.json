{
 "claims": [
  {
   "property": "C01",
   "status": "proved",
   "theorems": [
    "SunPhy.C01.C01_lsb_first",
    "SunPhy.C01.C01_injective"
   ],
   "note": ""
  },
  {
   "property": "C02",
   "status": "proved",
   "theorems": [
    "SunPhy.C02.C02_accepts_iff",
    "SunPhy.C02.C02_exceptions",
    "SunPhy.C02.C02_bytesToIQ",
    "SunPhy.C02.C02_empty"
   ],
   "note": ""
  },
  {
   "property": "C03",
   "status": "proved",
   "theorems": [
    "SunPhy.C03.C03_bitsToIQ",
    "SunPhy.C03.C03_validation",
    "SunPhy.C03.C03_accepts_iff",
    "SunPhy.C03.C03_identity"
   ],
   "note": ""
  },
  {
   "property": "C04",
   "status": "partial",
   "theorems": [
    "SunPhy.C04.C04_to_bin",
    "SunPhy.C04.C04_inverse_partial",
    "SunPhy.C04.C04_same_flag_reverses",
    "SunPhy.C04.C04_same_flag_false"
   ],
   "note": "False as stated: with equal flags to_int reads the opposite bit order of to_bin (C04_same_flag_false, C04_same_flag_reverses). Proved: to_bin, and inversion with opposite flags (C04_inverse_partial)."
  },
  {
   "property": "C05",
   "status": "proved",
   "theorems": [
    "SunPhy.C05.C05_output_of_nextN",
    "SunPhy.C05.C05_period",
    "SunPhy.C05.C05_ones",
    "SunPhy.C05.C05_never_zero",
    "SunPhy.C05.C05_zero_seed",
    "SunPhy.C05.C05_recurrence",
    "SunPhy.C05.C05_integer_seed",
    "SunPhy.C05.C05_closed_form",
    "SunPhy.C05.C05_default"
   ],
   "note": ""
  },
  {
   "property": "C06",
   "status": "proved",
   "theorems": [
    "SunPhy.C06.C06_refines_tape",
    "SunPhy.C06.C06_chunking",
    "SunPhy.C06.C06_reset",
    "SunPhy.C06.C06_reset_seed",
    "SunPhy.C06.C06_current_value"
   ],
   "note": ""
  },
  {
   "property": "C07",
   "status": "proved",
   "theorems": [
    "SunPhy.C07.C07_keystream",
    "SunPhy.C07.C07_involution",
    "SunPhy.C07.C07_differences"
   ],
   "note": ""
  },
  {
   "property": "C08",
   "status": "proved",
   "theorems": [
    "SunPhy.C08.C08_levels",
    "SunPhy.C08.C08_reversible",
    "SunPhy.C08.C08_columns",
    "SunPhy.C08.C08_gray"
   ],
   "note": ""
  },
  {
   "property": "C09",
   "status": "proved",
   "theorems": [
    "SunPhy.C09.C09_unit_power"
   ],
   "note": ""
  },
  {
   "property": "C10",
   "status": "proved",
   "theorems": [
    "SunPhy.C10.C10_taps",
    "SunPhy.C10.C10_AB",
    "SunPhy.C10.C10_seed",
    "SunPhy.C10.C10_reset"
   ],
   "note": ""
  },
  {
   "property": "C11",
   "status": "proved",
   "theorems": [
    "SunPhy.C11.C11_half",
    "SunPhy.C11.C11_three_quarter"
   ],
   "note": ""
  },
  {
   "property": "C12",
   "status": "proved",
   "theorems": [
    "SunPhy.C12.C12_errors",
    "SunPhy.C12.C12_punctured",
    "SunPhy.C12.C12_injective"
   ],
   "note": ""
  },
  {
   "property": "C13",
   "status": "proved",
   "theorems": [
    "SunPhy.C13.C13_half",
    "SunPhy.C13.C13_three_quarter"
   ],
   "note": ""
  },
  {
   "property": "C14",
   "status": "proved",
   "theorems": [
    "SunPhy.C14.C14_layout",
    "SunPhy.C14.C14_injective",
    "SunPhy.C14.C14_sizes"
   ],
   "note": ""
  },
  {
   "property": "C15",
   "status": "proved",
   "theorems": [
    "SunPhy.C15.C15_header",
    "SunPhy.C15.C15_header_all",
    "SunPhy.C15.C15_bitsToIQ",
    "SunPhy.C15.C15_bytesToIQ"
   ],
   "note": ""
  },
  {
   "property": "C16",
   "status": "proved",
   "theorems": [
    "SunPhy.C16.C16_crc",
    "SunPhy.C16.C16_unique",
    "SunPhy.C16.C16_register"
   ],
   "note": ""
  },
  {
   "property": "C17",
   "status": "proved",
   "theorems": [
    "SunPhy.C17.C17_ofdm",
    "SunPhy.C17.C17_oqpsk",
    "SunPhy.C17.C17_detects",
    "SunPhy.C17.C17_oqpsk_detects"
   ],
   "note": ""
  },
  {
   "property": "C18",
   "status": "partial",
   "theorems": [
    "SunPhy.C18.C18_exact",
    "SunPhy.C18.C18_partial",
    "SunPhy.C18.C18_false"
   ],
   "note": "False as stated: for MCS 4 and 6 (rate 3/4) the header takes 1.5 times the predetermined number of symbols (C18_false). Proved: the predetermined number for all other supported MCS (C18_partial) and the exact number for every configuration (C18_exact)."
  },
  {
   "property": "C19",
   "status": "proved",
   "theorems": [
    "SunPhy.C19.C19_reversible",
    "SunPhy.C19.C19_payload_blocks",
    "SunPhy.C19.C19_header"
   ],
   "note": ""
  },
  {
   "property": "C20",
   "status": "partial",
   "theorems": [
    "SunPhy.C20.C20_partial",
    "SunPhy.C20.C20_actual",
    "SunPhy.C20.C20_qam16_false"
   ],
   "note": "False for the 16-QAM MCS (C20_qam16_false): the code composes the two permutations in the other order, i(j(k)) (C20_actual). Proved as stated for MCS 0..4, where the orders agree (C20_partial)."
  },
  {
   "property": "C21",
   "status": "proved",
   "theorems": [
    "SunPhy.C21.C21_padding",
    "SunPhy.C21.C21_bits_per_symbol",
    "SunPhy.C21.C21_symbols"
   ],
   "note": ""
  },
  {
   "property": "C22",
   "status": "partial",
   "theorems": [
    "SunPhy.C22.C22_partial",
    "SunPhy.C22.C22_octets",
    "SunPhy.C22.C22_no_pad",
    "SunPhy.C22.C22_no_pad_false"
   ],
   "note": "False when no padding is needed (possible only for particular lengths): then the whole tail is left as keystream (C22_no_pad, C22_no_pad_false). Proved as stated whenever at least one padding bit is inserted (C22_partial); C22_octets lists exactly which octet messages are affected."
  },
  {
   "property": "C23",
   "status": "proved",
   "theorems": [
    "SunPhy.C23.C23_layout",
    "SunPhy.C23.C23_no_pilots",
    "SunPhy.C23.C23_success_implies_valid",
    "SunPhy.C23.C23_read_back",
    "SunPhy.C23.C23_mr_ofdm"
   ],
   "note": ""
  },
  {
   "property": "C24",
   "status": "proved",
   "theorems": [
    "SunPhy.C24.C24_concat",
    "SunPhy.C24.C24_handover",
    "SunPhy.C24.C24_frame"
   ],
   "note": ""
  },
  {
   "property": "C25",
   "status": "proved",
   "theorems": [
    "SunPhy.C25.C25_segments",
    "SunPhy.C25.C25_recover",
    "SunPhy.C25.C25_magnitude",
    "SunPhy.C25.C25_refused"
   ],
   "note": ""
  },
  {
   "property": "C26",
   "status": "proved",
   "theorems": [
    "SunPhy.C26.C26_accepts",
    "SunPhy.C26.C26_inverse",
    "SunPhy.C26.C26_injective",
    "SunPhy.C26.C26_energy"
   ],
   "note": ""
  },
  {
   "property": "C27",
   "status": "proved",
   "theorems": [
    "SunPhy.C27.C27_symbol",
    "SunPhy.C27.C27_stream",
    "SunPhy.C27.C27_degenerate"
   ],
   "note": ""
  },
  {
   "property": "C28",
   "status": "proved",
   "theorems": [
    "SunPhy.C28.C28_size",
    "SunPhy.C28.C28_duration"
   ],
   "note": ""
  },
  {
   "property": "C29",
   "status": "proved",
   "theorems": [
    "SunPhy.C29.C29_training",
    "SunPhy.C29.C29_ltf_tones"
   ],
   "note": ""
  },
  {
   "property": "C30",
   "status": "partial",
   "theorems": [
    "SunPhy.C30.C30_accepts",
    "SunPhy.C30.C30_supported",
    "SunPhy.C30.C30_unsupported",
    "SunPhy.C30.C30_mcs7",
    "SunPhy.C30.C30_errors",
    "SunPhy.C30.C30_value_error_partial"
   ],
   "note": "False for MCS 7: the range check lets it through and the table lookup raises IndexError (C30_mcs7). Everything else is proved as stated: acceptance (C30_accepts, C30_supported), UnsupportedError (C30_unsupported), ValueError otherwise (C30_value_error_partial)."
  },
  {
   "property": "C31",
   "status": "proved",
   "theorems": [
    "SunPhy.C31.C31_success",
    "SunPhy.C31.C31_injective"
   ],
   "note": ""
  },
  {
   "property": "C32",
   "status": "proved",
   "theorems": [
    "SunPhy.C32.C32_ofdm",
    "SunPhy.C32.C32_fsk",
    "SunPhy.C32.C32_oqpsk"
   ],
   "note": ""
  },
  {
   "property": "C33",
   "status": "proved",
   "theorems": [
    "SunPhy.C33.C33_accepts",
    "SunPhy.C33.C33_errors",
    "SunPhy.C33.C33_ranges"
   ],
   "note": ""
  },
  {
   "property": "C34",
   "status": "proved",
   "theorems": [
    "SunPhy.C34.C34_shr",
    "SunPhy.C34.C34_sfd_unique",
    "SunPhy.C34.C34_frames_differ"
   ],
   "note": ""
  },
  {
   "property": "C35",
   "status": "proved",
   "theorems": [
    "SunPhy.C35.C35_header",
    "SunPhy.C35.C35_read_back",
    "SunPhy.C35.C35_frame",
    "SunPhy.C35.C35_too_long"
   ],
   "note": ""
  },
  {
   "property": "C36",
   "status": "proved",
   "theorems": [
    "SunPhy.C36.C36_terminated",
    "SunPhy.C36.C36_pad_independent"
   ],
   "note": ""
  },
  {
   "property": "C37",
   "status": "proved",
   "theorems": [
    "SunPhy.C37.C37_size",
    "SunPhy.C37.C37_multiple",
    "SunPhy.C37.C37_frames"
   ],
   "note": ""
  },
  {
   "property": "C38",
   "status": "proved",
   "theorems": [
    "SunPhy.C38.C38_distance",
    "SunPhy.C38.C38_injective",
    "SunPhy.C38.C38_corrects_two",
    "SunPhy.C38.C38_systematic",
    "SunPhy.C38.C38_distance_sharp"
   ],
   "note": ""
  },
  {
   "property": "C39",
   "status": "proved",
   "theorems": [
    "SunPhy.C37.C39_accepts",
    "SunPhy.C37.C39_involution",
    "SunPhy.C37.C39_permutation"
   ],
   "note": ""
  },
  {
   "property": "C40",
   "status": "proved",
   "theorems": [
    "SunPhy.C35.C40_whitening"
   ],
   "note": ""
  },
  {
   "property": "C41",
   "status": "proved",
   "theorems": [
    "SunPhy.C41.C41_receiver",
    "SunPhy.C41.C41_octets",
    "SunPhy.C41.C41_injective"
   ],
   "note": ""
  },
  {
   "property": "C42",
   "status": "proved",
   "theorems": [
    "SunPhy.C42.C42_waveform",
    "SunPhy.C42.C42_demodulation",
    "SunPhy.C42.C42_injective",
    "SunPhy.C42.C42_messages"
   ],
   "note": ""
  },
  {
   "property": "C43",
   "status": "partial",
   "theorems": [
    "SunPhy.C43.C43_boundary_iff",
    "SunPhy.C43.C43_integer_index_partial",
    "SunPhy.C43.C43_2fsk_iff",
    "SunPhy.C43.C43_4fsk_necessary",
    "SunPhy.C43.C43_4fsk_iff"
   ],
   "note": "False for non-integer modulation indices. Proved: the exact phase-continuity condition at every symbol boundary (C43_boundary_iff), continuity for every integer-index configuration (C43_integer_index_partial), and that for 2-FSK and for 4-FSK (indices that are ints or floats) frames are continuous exactly for integer indices (C43_2fsk_iff, C43_4fsk_iff)."
  },
  {
   "property": "C44",
   "status": "partial",
   "theorems": [
    "SunPhy.C44.C44_exact_partial",
    "SunPhy.C44.C44_length",
    "SunPhy.C44.C44_outcome",
    "SunPhy.C44.C44_double_fails"
   ],
   "note": "Proved in exact arithmetic (C44_exact_partial, C44_length, C44_outcome); false in binary64, where the rounded arange step can give one sample too many (C44_double_fails)."
  },
  {
   "property": "C45",
   "status": "partial",
   "theorems": [
    "SunPhy.C45.C45_arguments_partial",
    "SunPhy.C45.C45_no_signal",
    "SunPhy.C45.C45_header_fails"
   ],
   "note": "Only the argument checks exist in the code (C45_arguments_partial); the mode switch call returns no signal (C45_no_signal) and its header builder always raises ValueError (C45_header_fails)."
  },
  {
   "property": "C46",
   "status": "proved",
   "theorems": [
    "SunPhy.C63.C46_constructor",
    "SunPhy.C63.C46_no_signal"
   ],
   "note": ""
  },
  {
   "property": "C47",
   "status": "proved",
   "theorems": [
    "SunPhy.C47.C47_header",
    "SunPhy.C47.C47_too_long",
    "SunPhy.C47.C47_read_back",
    "SunPhy.C47.C47_distance",
    "SunPhy.C47.C47_negative",
    "SunPhy.C47.C47_iff"
   ],
   "note": ""
  },
  {
   "property": "C48",
   "status": "proved",
   "theorems": [
    "SunPhy.C48.C48_running_xor",
    "SunPhy.C48.C48_recover",
    "SunPhy.C48.C48_injective",
    "SunPhy.C48.C48_restart"
   ],
   "note": ""
  },
  {
   "property": "C49",
   "status": "proved",
   "theorems": [
    "SunPhy.C49.C49_phr",
    "SunPhy.C49.C49_psdu"
   ],
   "note": ""
  },
  {
   "property": "C50",
   "status": "partial",
   "theorems": [
    "SunPhy.C50.C50_phr",
    "SunPhy.C50.C50_one_block_partial",
    "SunPhy.C50.C50_lost",
    "SunPhy.C50.C50_false",
    "SunPhy.C50.C50_total"
   ],
   "note": "False for PSDUs of two or more 126-bit blocks (C50_false): the code uses the index formula of one block for the whole PSDU and negative indices wrap around. Proved: the PHR interleaver and one-block PSDUs are permutations (C50_phr, C50_one_block_partial); exactly which coded bits are lost for every length (C50_lost); it never raises (C50_total)."
  },
  {
   "property": "C51",
   "status": "proved",
   "theorems": [
    "SunPhy.C51.C51_tables",
    "SunPhy.C51.C51_complementary"
   ],
   "note": ""
  },
  {
   "property": "C52",
   "status": "proved",
   "theorems": [
    "SunPhy.C51.C52_spread",
    "SunPhy.C51.C52_recover",
    "SunPhy.C51.C52_injective"
   ],
   "note": ""
  },
  {
   "property": "C53",
   "status": "partial",
   "theorems": [
    "SunPhy.C63.C53_exact",
    "SunPhy.C63.C53_one_bit_partial",
    "SunPhy.C63.C53_false"
   ],
   "note": "False in the 4-bit spreading configurations (C53_false): _DSSS raises ValueError whenever the number of 63-bit blocks is odd. Exact condition: C53_exact; all one-bit configurations: C53_one_bit_partial."
  },
  {
   "property": "C54",
   "status": "partial",
   "theorems": [
    "SunPhy.C63.C54_false"
   ],
   "note": "False (C54_false): the MDSSS multiplexer ignores the encoded bits, so all messages of the same size give the same signal."
  },
  {
   "property": "C55",
   "status": "partial",
   "theorems": [
    "SunPhy.C63.C55_exact",
    "SunPhy.C63.C55_uncoded_partial"
   ],
   "note": "False for rate modes 0 and 1 with an odd number of blocks. Exact condition: C55_exact; rate modes 2 and 3: C55_uncoded_partial."
  },
  {
   "property": "C56",
   "status": "partial",
   "theorems": [
    "SunPhy.C56.C56_actual",
    "SunPhy.C56.C56_distinct_partial",
    "SunPhy.C56.C56_false"
   ],
   "note": "False (C56_false): codewords 4..7 are all zero for every size. Actual codewords: C56_actual; words 0..3 are distinct: C56_distinct_partial."
  },
  {
   "property": "C57",
   "status": "proved",
   "theorems": [
    "SunPhy.C57.C57_structure",
    "SunPhy.C57.C57_recover",
    "SunPhy.C57.C57_size",
    "SunPhy.C57.C57_injective",
    "SunPhy.C60.C57_api"
   ],
   "note": ""
  },
  {
   "property": "C58",
   "status": "partial",
   "theorems": [
    "SunPhy.C57.C58_pilot_partial",
    "SunPhy.C57.C58_2450",
    "SunPhy.C60.C58_api"
   ],
   "note": "Proved for all bands except 2450 MHz (C58_pilot_partial); for 2450 MHz the pilot differs from the code in exactly chip 78 (C58_2450). On the returned signal: C58_api."
  },
  {
   "property": "C59",
   "status": "partial",
   "theorems": [
    "SunPhy.C59.C59_length",
    "SunPhy.C59.C59_exact",
    "SunPhy.C59.C59_short_partial",
    "SunPhy.C59.C59_false"
   ],
   "note": "False from 8 octets on (C59_false). Exact: C59_exact says which message bits are not transmitted; different lengths always differ (C59_length); messages of at most 7 octets are distinguished (C59_short_partial)."
  },
  {
   "property": "C60",
   "status": "proved",
   "theorems": [
    "SunPhy.C60.C60_waveform",
    "SunPhy.C60.C60_demodulate",
    "SunPhy.C60.C60_injective",
    "SunPhy.C60.C60_api",
    "SunPhy.C60.C60_api_demodulate"
   ],
   "note": ""
  },
  {
   "property": "C61",
   "status": "partial",
   "theorems": [
    "SunPhy.C60.C61_false",
    "SunPhy.C60.C61_aligned",
    "SunPhy.C60.C61_api"
   ],
   "note": "False (C61_false): I and Q chips of a pair are transmitted simultaneously (C61_aligned). On the returned signal: C61_api."
  },
  {
   "property": "C62",
   "status": "partial",
   "theorems": [
    "SunPhy.C62.C62_half_sine",
    "SunPhy.C62.C62_singular",
    "SunPhy.C62.C62_finite_partial",
    "SunPhy.C62.C62_false",
    "SunPhy.C62.C62_limit",
    "SunPhy.C62.C62_nonzero"
   ],
   "note": "False when 32 divides samples_per_symbol (C62_false, C62_singular); otherwise proved (C62_finite_partial), with the half sine support (C62_half_sine), the limit at the singularity (C62_limit) and the exact condition for a non-zero sample (C62_nonzero)."
  },
  {
   "property": "C63",
   "status": "proved",
   "theorems": [
    "SunPhy.C63.C63_frame_size"
   ],
   "note": ""
  },
  {
   "property": "C64",
   "status": "proved",
   "theorems": [
    "SunPhy.C36.C64_nrnsc",
    "SunPhy.C36.C64_rsc"
   ],
   "note": ""
  },
  {
   "property": "C65",
   "status": "proved",
   "theorems": [
    "SunPhy.C44.C65_frame_size"
   ],
   "note": ""
  },
  {
   "property": "C66",
   "status": "partial",
   "theorems": [
    "SunPhy.C60.C66_exact_partial",
    "SunPhy.C60.C66_false",
    "SunPhy.C60.C66_api"
   ],
   "note": "False in general (C66_false): the code takes the data rate for the chip rate. It holds exactly for rate mode 3 outside 2450 MHz (C66_exact_partial). On the returned signal: C66_api."
  },
  {
   "property": "C67",
   "status": "proved",
   "theorems": [
    "SunPhy.C67.C67_reference",
    "SunPhy.C67.C67_bytes",
    "SunPhy.C67.C67_size"
   ],
   "note": "Spec/OfdmReference.lean gives the transmitter in closed form over exact complex numbers."
  },
  {
   "property": "C68",
   "status": "proved",
   "theorems": [
    "SunPhy.C68.C68_reference",
    "SunPhy.C68.C68_bytes"
   ],
   "note": "Spec/OqpskReference.lean gives the transmitter in closed form."
  },
  {
   "property": "C69",
   "status": "proved",
   "theorems": [
    "SunPhy.C69.C69_bits",
    "SunPhy.C69.C69_reference",
    "SunPhy.C69.C69_bytes"
   ],
   "note": "Spec/FskReference.lean gives the transmitter in closed form. Bits (C69_bits) hold as is; samples (C69_reference, C69_bytes) in exact arithmetic - the number of samples in double precision is C44."
  },
  {
   "property": "C70",
   "status": "proved",
   "theorems": [
    "SunPhy.C70.C70_accepts",
    "SunPhy.C70.C70_errors",
    "SunPhy.C70.C70_mr_ofdm"
   ],
   "note": "Model/OfdmCtor.lean; the power-of-two test is read exactly (what its rounding changes from 2^29 on is C147)."
  },
  {
   "property": "C71",
   "status": "proved",
   "theorems": [
    "SunPhy.C18.C18_exact"
   ],
   "note": "Exact companion of C18."
  },
  {
   "property": "C72",
   "status": "proved",
   "theorems": [
    "SunPhy.C20.C20_actual"
   ],
   "note": "Exact companion of C20."
  },
  {
   "property": "C73",
   "status": "proved",
   "theorems": [
    "SunPhy.C71.C73_tail",
    "SunPhy.C22.C22_octets",
    "SunPhy.C22.C22_no_pad"
   ],
   "note": "Exact companion of C22."
  },
  {
   "property": "C74",
   "status": "proved",
   "theorems": [
    "SunPhy.C30.C30_accepts",
    "SunPhy.C30.C30_supported",
    "SunPhy.C30.C30_unsupported",
    "SunPhy.C30.C30_mcs7",
    "SunPhy.C30.C30_errors"
   ],
   "note": "Exact companion of C30."
  },
  {
   "property": "C75",
   "status": "proved",
   "theorems": [
    "SunPhy.C43.C43_boundary_iff",
    "SunPhy.C43.C43_2fsk_iff"
   ],
   "note": "Exact companion of C43."
  },
  {
   "property": "C76",
   "status": "proved",
   "theorems": [
    "SunPhy.C44.C44_length",
    "SunPhy.C44.C44_outcome"
   ],
   "note": "Exact companion of C44."
  },
  {
   "property": "C77",
   "status": "proved",
   "theorems": [
    "SunPhy.C50.C50_lost",
    "SunPhy.C50.C50_total",
    "SunPhy.C50.C50_phr"
   ],
   "note": "Exact companion of C50."
  },
  {
   "property": "C78",
   "status": "proved",
   "theorems": [
    "SunPhy.C63.C53_exact",
    "SunPhy.C63.C55_exact"
   ],
   "note": "Exact companion of C53 and C55."
  },
  {
   "property": "C79",
   "status": "proved",
   "theorems": [
    "SunPhy.C71.C79_length_only"
   ],
   "note": "Exact companion of C54."
  },
  {
   "property": "C80",
   "status": "proved",
   "theorems": [
    "SunPhy.C56.C56_actual"
   ],
   "note": "Exact companion of C56."
  },
  {
   "property": "C81",
   "status": "proved",
   "theorems": [
    "SunPhy.C59.C59_exact",
    "SunPhy.C59.C59_length"
   ],
   "note": "Exact companion of C59."
  },
  {
   "property": "C82",
   "status": "proved",
   "theorems": [
    "SunPhy.C60.C82_api",
    "SunPhy.C60.C61_aligned"
   ],
   "note": "Exact companion of C61."
  },
  {
   "property": "C83",
   "status": "proved",
   "theorems": [
    "SunPhy.C62.C62_singular",
    "SunPhy.C62.C62_limit",
    "SunPhy.C62.C62_nonzero",
    "SunPhy.C62.C62_half_sine"
   ],
   "note": "Exact companion of C62."
  },
  {
   "property": "C84",
   "status": "proved",
   "theorems": [
    "SunPhy.C60.C84_api",
    "SunPhy.C71.C84_frequency"
   ],
   "note": "Exact companion of C66."
  },
  {
   "property": "C85",
   "status": "proved",
   "theorems": [
    "SunPhy.C71.C85_order",
    "SunPhy.C04.C04_to_bin",
    "SunPhy.C04.C04_same_flag_reverses"
   ],
   "note": "Exact companion of C04."
  },
  {
   "property": "C86",
   "status": "proved",
   "theorems": [
    "SunPhy.C60.C86_api",
    "SunPhy.C71.C86_pilots",
    "SunPhy.C57.C58_2450"
   ],
   "note": "Exact companion of C58."
  },
  {
   "property": "C87",
   "status": "proved",
   "theorems": [
    "SunPhy.C87.C87_fsk",
    "SunPhy.C87.C87_fsk_bitsToIQ",
    "SunPhy.C87.C87_ofdm",
    "SunPhy.C87.C87_oqpsk",
    "SunPhy.C87.C87_oqpsk_bitsToIQ"
   ],
   "note": "final state of the object after bitsToIQ of all three modulators against the reference transmitters (O-QPSK: any number of bits, standard modes)"
  },
  {
   "property": "C88",
   "status": "proved",
   "theorems": [
    "SunPhy.C88.C88_distance",
    "SunPhy.C88.C88_corrects_two"
   ],
   "note": "distance on the transmitted bit list of the API (C69 reference), through whitening, interleaving and both encoders"
  },
  {
   "property": "C89",
   "status": "proved",
   "theorems": [
    "SunPhy.C89.C89_distance"
   ],
   "note": "distance on the attribute payload_interleaved after both calls"
  },
  {
   "property": "C90",
   "status": "proved",
   "theorems": [
    "SunPhy.C90.C90_window",
    "SunPhy.C90.C90_frame"
   ],
   "note": "count of pilots per tone over any window of one cycle, attached to the frame of the API"
  },
  {
   "property": "C91",
   "status": "proved",
   "theorems": [
    "SunPhy.C91.C91_energy"
   ],
   "note": "energy of windows of the samples returned by bitsToIQ, exact real arithmetic"
  },
  {
   "property": "C92",
   "status": "proved",
   "theorems": [
    "SunPhy.C92.C92_bpsk",
    "SunPhy.C92.C92_qpsk_2d",
    "SunPhy.C92.C92_qpsk_1d",
    "SunPhy.C92.C92_qam16",
    "SunPhy.C92.C92_unsupported",
    "SunPhy.C92.C92_get",
    "SunPhy.C92.C92_columns"
   ],
   "note": "Model/ModulationsFull.lean; C92_columns shows that the column model used elsewhere is its restriction"
  },
  {
   "property": "C93",
   "status": "proved",
   "theorems": [
    "SunPhy.C93.C93_accepts",
    "SunPhy.C93.C93_columns",
    "SunPhy.C93.C93_samples",
    "SunPhy.C93.C93_bits"
   ],
   "note": "Model/SubcarriersFull.lean; samples for even N_FFT and prefixes of at least one sample (the others are C27)"
  },
  {
   "property": "C94",
   "status": "proved",
   "theorems": [
    "SunPhy.C94.C94_ofdm",
    "SunPhy.C94.C94_oqpsk",
    "SunPhy.C94.C94_double"
   ],
   "note": "Model/PolyFloat.lean models every rounded operation; C94_double instantiates IEEE 754 binary64"
  },
  {
   "property": "C95",
   "status": "proved",
   "theorems": [
    "SunPhy.C95.C95_ofdm",
    "SunPhy.C95.C95_fsk"
   ],
   "note": "uses the positions proved in C20_actual/C39_permutation"
  },
  {
   "property": "C96",
   "status": "proved",
   "theorems": [
    "SunPhy.C96.C96_bits",
    "SunPhy.C96.C96_octets"
   ],
   "note": "C96_octets relates the condition to C53/C55"
  },
  {
   "property": "C97",
   "status": "proved",
   "theorems": [
    "SunPhy.C97.C97_distance",
    "SunPhy.C97.C97_noise"
   ],
   "note": "lower bound over exact complex samples; built on C67, C89, C91"
  },
  {
   "property": "C98",
   "status": "proved",
   "theorems": [
    "SunPhy.C98.C98_header",
    "SunPhy.C98.C98_messages",
    "SunPhy.C98.C98_noise"
   ],
   "note": "exact complex samples; distance over the common prefix"
  },
  {
   "property": "C99",
   "status": "proved",
   "theorems": [
    "SunPhy.C99.C99_symbols",
    "SunPhy.C99.C99_coded",
    "SunPhy.C99.C99_noise",
    "SunPhy.C99.C99_any"
   ],
   "note": "exact arithmetic"
  },
  {
   "property": "C100",
   "status": "proved",
   "theorems": [
    "SunPhy.C100.C100_bits",
    "SunPhy.C100.C100_octets",
    "SunPhy.C100.C100_clean"
   ],
   "note": "exact arithmetic"
  },
  {
   "property": "C101",
   "status": "proved",
   "theorems": [
    "SunPhy.C101.C101_bits",
    "SunPhy.C101.C101_octets",
    "SunPhy.C101.C101_clean"
   ],
   "note": "exact arithmetic"
  },
  {
   "property": "C102",
   "status": "proved",
   "theorems": [
    "SunPhy.C102.C102_bits",
    "SunPhy.C102.C102_octets",
    "SunPhy.C102.C102_short",
    "SunPhy.C102.C102_clean"
   ],
   "note": "exact arithmetic"
  },
  {
   "property": "C103",
   "status": "proved",
   "theorems": [
    "SunPhy.C103.C103_built",
    "SunPhy.C103.C103_accepts_symbols",
    "SunPhy.C103.C103_accepts",
    "SunPhy.C103.C103_default",
    "SunPhy.C103.C103_refused",
    "SunPhy.C103.C103_signal",
    "SunPhy.C103.C103_empty"
   ],
   "note": "array entries are rationals (nan/inf not modelled); power-of-two test of the constructor read exactly (C147); exact complex arithmetic"
  },
  {
   "property": "C104",
   "status": "proved",
   "theorems": [
    "SunPhy.C104.C104_positive",
    "SunPhy.C104.C104_distinct",
    "SunPhy.C104.C104_no_data"
   ],
   "note": "exact complex arithmetic"
  },
  {
   "property": "C105",
   "status": "proved",
   "theorems": [
    "SunPhy.C105.C105_oqpsk",
    "SunPhy.C105.C105_ofdm",
    "SunPhy.C105.C105_fsk",
    "SunPhy.C105.C105_bytes"
   ],
   "note": "exact real and complex arithmetic"
  },
  {
   "property": "C106",
   "status": "proved",
   "theorems": [
    "SunPhy.C106.C106_symbol",
    "SunPhy.C106.C106_one_bit",
    "SunPhy.C106.C106_header",
    "SunPhy.C106.C106_oqpsk_header"
   ],
   "note": "exact complex arithmetic"
  },
  {
   "property": "C107",
   "status": "proved",
   "theorems": [
    "SunPhy.C107.C107_bits",
    "SunPhy.C107.C107_first",
    "SunPhy.C107.C107_samples"
   ],
   "note": "samples in exact arithmetic"
  },
  {
   "property": "C108",
   "status": "proved",
   "theorems": [
    "SunPhy.C108.C108_reference"
   ],
   "note": "exact real and complex arithmetic"
  },
  {
   "property": "C109",
   "status": "proved",
   "theorems": [
    "SunPhy.C109.C109_failures",
    "SunPhy.C109.C109_samples",
    "SunPhy.C109.C109_octets",
    "SunPhy.C109.C109_decoded"
   ],
   "note": "no overflow or underflow; IEEE 754 round-to-nearest is proved to satisfy the rounding hypothesis; the accuracy eta of numpy's complex exponential is a hypothesis"
  },
  {
   "property": "C110",
   "status": "proved",
   "theorems": [
    "SunPhy.C110.C110_distance",
    "SunPhy.C110.C110_present",
    "SunPhy.C110.C110_sync",
    "SunPhy.C110.C110_received"
   ],
   "note": "samples in exact arithmetic (C109 bounds the rounding)"
  },
  {
   "property": "C111",
   "status": "proved",
   "theorems": [
    "SunPhy.C111.C111_bits",
    "SunPhy.C111.C111_octets",
    "SunPhy.C111.C111_decoded",
    "SunPhy.C111.C111_not_finite",
    "SunPhy.C111.C111_wrong_sign"
   ],
   "note": "overflow/underflow not modelled; accuracy of np.sin and np.cos is a hypothesis"
  },
  {
   "property": "C112",
   "status": "proved",
   "theorems": [
    "SunPhy.C112.C112_bits",
    "SunPhy.C112.C112_octets",
    "SunPhy.C112.C112_decoded"
   ],
   "note": "accuracy of np.fft.ifft, np.exp, np.sqrt and complex products is a hypothesis (Accurate); overflow/underflow not modelled"
  },
  {
   "property": "C113",
   "status": "proved",
   "theorems": [
    "SunPhy.C113.C113_separate",
    "SunPhy.C113.C113_fsk_after",
    "SunPhy.C113.C113_oqpsk_after",
    "SunPhy.C113.C113_ofdm_after",
    "SunPhy.C113.C113_fsk_race",
    "SunPhy.C113.C113_oqpsk_race",
    "SunPhy.C113.C113_ofdm_race",
    "SunPhy.C113.C113_ofdm_wrong"
   ],
   "note": "thread switches between attribute accesses; separate objects: all schedules; shared object: the attributes listed in Model/Concurrent.lean are shared, see its header for what is not. The race theorems document a defect of the code (state kept in attributes)"
  },
  {
   "property": "C114",
   "status": "proved",
   "theorems": [
    "SunPhy.C114.C114_typed",
    "SunPhy.C114.C114_constructor",
    "SunPhy.C114.C114_success",
    "SunPhy.C114.C114_exceptions",
    "SunPhy.C114.C114_spreading",
    "SunPhy.C114.C114_typed_bytes"
   ],
   "note": "Model/MrOqpskRaw.lean; numpy scalars as arguments are not modelled, NaN/inf/None/list are the values 'other'"
  },
  {
   "property": "C115",
   "status": "proved",
   "theorems": [
    "SunPhy.C115.C115_bits_iff",
    "SunPhy.C115.C115_bits_values",
    "SunPhy.C115.C115_bits_nan",
    "SunPhy.C115.C115_bits_finite",
    "SunPhy.C115.C115_octets_list",
    "SunPhy.C115.C115_octets_array",
    "SunPhy.C115.C115_octets_x86",
    "SunPhy.C115.C115_octets_arm",
    "SunPhy.C115.C115_octets_finite",
    "SunPhy.C115.C115_bytesToIQ",
    "SunPhy.C115.C115_fsk_rate",
    "SunPhy.C115.C115_fsk_index",
    "SunPhy.C115.C115_fsk_finite",
    "SunPhy.C115.C115_bytesToIQ_finite",
    "SunPhy.C115.C115_bytesToIQ_arm"
   ],
   "note": "Model/SpecialFloats.lean; the conversion of out-of-range values is a parameter; what the modulators do with the non-binary values of a NaN message: see C144 and C146"
  },
  {
   "property": "C116",
   "status": "proved",
   "theorems": [
    "SunPhy.C116.C116_exact",
    "SunPhy.C116.C116_header",
    "SunPhy.C116.C116_short",
    "SunPhy.C116.C116_contained",
    "SunPhy.C116.C116_messages",
    "SunPhy.C116.C116_noise",
    "SunPhy.C116.C116_bound"
   ],
   "note": "bounds for more than 7 octets are small because the interleaver (C81) loses coded bits"
  },
  {
   "property": "C117",
   "status": "proved",
   "theorems": [
    "SunPhy.C117.C117_program",
    "SunPhy.C117.C117_call",
    "SunPhy.C117.C117_separate",
    "SunPhy.C117.C117_write"
   ],
   "note": "memory model: Model/Memory.lean, Model/MemoryWorld.lean; specification: Spec/Isolation.lean; arguments are messages (not complex arrays); private attributes are not written by the program"
  },
  {
   "property": "C118",
   "status": "proved",
   "theorems": [
    "SunPhy.C118.C118_looks",
    "SunPhy.C118.C118_untouched",
    "SunPhy.C118.C118_call",
    "SunPhy.C118.C118_construct"
   ],
   "note": "memory model: Model/MemoryPilots.lean; specification: Spec/PilotArrays.lean; writes change entries, not shapes"
  },
  {
   "property": "C119",
   "status": "proved",
   "theorems": [
    "SunPhy.C119.C119_distance",
    "SunPhy.C119.C119_early",
    "SunPhy.C119.C119_late",
    "SunPhy.C119.C119_clean"
   ],
   "note": "specification: Spec/OqpskSync.lean; chip timing is known to the receiver; messages of whole octets"
  },
  {
   "property": "C120",
   "status": "proved",
   "theorems": [
    "SunPhy.C120.C120_bits",
    "SunPhy.C120.C120_octets",
    "SunPhy.C120.C120_clean",
    "SunPhy.C120.C120_shift"
   ],
   "note": "specification: Spec/OfdmEqualiser.lean, Spec/OfdmReceiver.lean; frame start known to the receiver up to the channel's delay; ideal (real-number) samples"
  },
  {
   "property": "C121",
   "status": "proved",
   "theorems": [
    "SunPhy.C121.C121_bits",
    "SunPhy.C121.C121_octets",
    "SunPhy.C121.C121_clean",
    "SunPhy.C121.C121_noise"
   ],
   "note": "specification: Spec/FskDiscriminator.lean, Spec/FskSync.lean, Spec/FskReceiver.lean; exact arithmetic"
  },
  {
   "property": "C122",
   "status": "proved",
   "theorems": [
    "SunPhy.C122.C122_early",
    "SunPhy.C122.C122_late",
    "SunPhy.C122.C122_octets",
    "SunPhy.C122.C122_clean"
   ],
   "note": "specification: Spec/OqpskGain.lean, Spec/OqpskSync.lean, Spec/OqpskReceiver.lean; exact arithmetic"
  },
  {
   "property": "C123",
   "status": "proved",
   "theorems": [
    "SunPhy.C123.C123_dsss",
    "SunPhy.C123.C123_mdsss",
    "SunPhy.C123.C123_short",
    "SunPhy.C123.C123_long"
   ],
   "note": "generalises C59 and C79 to bit messages that are not whole octets; exact arithmetic"
  },
  {
   "property": "C124",
   "status": "proved",
   "theorems": [
    "SunPhy.C124.C124_early",
    "SunPhy.C124.C124_late",
    "SunPhy.C124.C124_octets",
    "SunPhy.C124.C124_clean"
   ],
   "note": "receiver in Spec/OfdmSync.lean; the correlation of the training fields at every offset is evaluated by the kernel in integers (packed in large numbers) with error bounds for the 128th roots of unity; exact arithmetic; builds on C120"
  },
  {
   "property": "C125",
   "status": "proved",
   "theorems": [
    "SunPhy.C125.C125_bits",
    "SunPhy.C125.C125_octets",
    "SunPhy.C125.C125_clean",
    "SunPhy.C125.C125_flat"
   ],
   "note": "receiver in Spec/OfdmCarrier.lean; exact arithmetic; builds on C120; start of the frame known (C124 finds it without a turn)"
  },
  {
   "property": "C126",
   "status": "proved",
   "theorems": [
    "SunPhy.C126.C126_bits",
    "SunPhy.C126.C126_octets",
    "SunPhy.C126.C126_clean"
   ],
   "note": "receiver in Spec/OqpskCarrier.lean; exact arithmetic; builds on C122"
  },
  {
   "property": "C127",
   "status": "proved",
   "theorems": [
    "SunPhy.C127.C127_bits",
    "SunPhy.C127.C127_octets",
    "SunPhy.C127.C127_clean"
   ],
   "note": "receiver in Spec/OfdmAcquire.lean; exact arithmetic; one complex factor as channel (C125 has multipath with known start); builds on C124"
  },
  {
   "property": "C128",
   "status": "proved",
   "theorems": [
    "SunPhy.C128.C128_to_bin_nonneg",
    "SunPhy.C128.C128_to_bin_negative",
    "SunPhy.C128.C128_to_bin_accepts",
    "SunPhy.C128.C128_to_bin_nat",
    "SunPhy.C128.C128_to_int",
    "SunPhy.C128.C128_round_trip",
    "SunPhy.C128.C128_from_bitstring",
    "SunPhy.C128.C128_tables"
   ],
   "note": "Model/BitsFull.lean; the width is a non-negative integer; the value of a character for int() is a parameter (ASCII digits in the table theorem)"
  },
  {
   "property": "C129",
   "status": "proved",
   "theorems": [
    "SunPhy.C129.C129_half",
    "SunPhy.C129.C129_nat",
    "SunPhy.C129.C129_seed",
    "SunPhy.C129.C129_three_quarter",
    "SunPhy.C129.C129_stuck"
   ],
   "note": "Model/RateEncoderFull.lean; arrays of finite real numbers in one dimension (entries of A and B are 0 or 1, exact in every dtype)"
  },
  {
   "property": "C130",
   "status": "proved",
   "theorems": [
    "SunPhy.C130.C130_same",
    "SunPhy.C130.C130_constructor",
    "SunPhy.C130.C130_announced",
    "SunPhy.C130.C130_quiet",
    "SunPhy.C130.C130_ofdm_lines",
    "SunPhy.C130.C130_ofdm_sizes",
    "SunPhy.C130.C130_oqpsk_lines",
    "SunPhy.C130.C130_oqpsk_refused",
    "SunPhy.C130.C130_modulator_lines",
    "SunPhy.C130.C130_bytes"
   ],
   "note": "Model/Console.lean, Model/ConsoleOfdm.lean; two texts are parameters: str of the modulation factor (a float) and str of an integer array; a line is the argument of one call of print; the inner Ofdm_modulator objects of Mr_ofdm_modulator are created without the flag and print nothing"
  },
  {
   "property": "C131",
   "status": "proved",
   "theorems": [
    "SunPhy.C131.C131_ofdm",
    "SunPhy.C131.C131_ofdm_unique",
    "SunPhy.C131.C131_fsk",
    "SunPhy.C131.C131_fsk_unique",
    "SunPhy.C131.C131_oqpsk",
    "SunPhy.C131.C131_oqpsk_unique"
   ],
   "note": "exact arithmetic; frames follow each other without gap and start at a known sample (C110, C119, C124, C127 find the start)"
  },
  {
   "property": "C132",
   "status": "proved",
   "theorems": [
    "SunPhy.C132.C132_symbols",
    "SunPhy.C132.C132_long",
    "SunPhy.C132.C132_short",
    "SunPhy.C132.C132_mean"
   ],
   "note": "exact arithmetic; windows that straddle two symbols are not covered (they do leak), nor is the last half of the fourth short symbol, which is negated"
  },
  {
   "property": "C133",
   "status": "proved",
   "theorems": [
    "SunPhy.C133.C133_octets",
    "SunPhy.C133.C133_clean",
    "SunPhy.C133.C133_bits",
    "SunPhy.C133.C133_unique"
   ],
   "note": "exact arithmetic; the receiver is told where the frame starts"
  },
  {
   "property": "C134",
   "status": "proved",
   "theorems": [
    "SunPhy.C134.C134_unique",
    "SunPhy.C134.C134_bits",
    "SunPhy.C134.C134_mixed",
    "SunPhy.C134.C134_plain",
    "SunPhy.C134.C134_plain_bits"
   ],
   "note": "exact arithmetic; octet and bit messages of any non-zero length"
  },
  {
   "property": "C135",
   "status": "proved",
   "theorems": [
    "SunPhy.C135.C135_alike",
    "SunPhy.C135.C135_exact",
    "SunPhy.C135.C135_octets"
   ],
   "note": "exact arithmetic"
  },
  {
   "property": "C136",
   "status": "proved",
   "theorems": [
    "SunPhy.C136.C136_first",
    "SunPhy.C136.C136_kind",
    "SunPhy.C136.C136_signal",
    "SunPhy.C136.C136_ofdm"
   ],
   "note": "exact arithmetic"
  },
  {
   "property": "C137",
   "status": "proved",
   "theorems": [
    "SunPhy.C137.C137_octets",
    "SunPhy.C137.C137_waves",
    "SunPhy.C137.C137_none"
   ],
   "note": "exact arithmetic; the receiver is told which tones are lost"
  },
  {
   "property": "C138",
   "status": "proved",
   "theorems": [
    "SunPhy.C138.C138_kind",
    "SunPhy.C138.C138_ofdm",
    "SunPhy.C138.C138_first",
    "SunPhy.C138.C138_kind_machine",
    "SunPhy.C138.C138_ofdm_machine"
   ],
   "note": "exact arithmetic and machine arithmetic as in C109, C111, C112"
  },
  {
   "property": "C139",
   "status": "proved",
   "theorems": [
    "SunPhy.C139.C139_octets",
    "SunPhy.C139.C139_waves"
   ],
   "note": "exact arithmetic; the receiver is told which tones are lost; for schemes of rate 3/4 see C145"
  },
  {
   "property": "C140",
   "status": "proved",
   "theorems": [
    "SunPhy.C140.C140_bits",
    "SunPhy.C140.C140_octets",
    "SunPhy.C140.C140_plain",
    "SunPhy.C140.C140_interleaved",
    "SunPhy.C140.C140_burst"
   ],
   "note": "exact arithmetic; the receiver is told which symbols are lost and where the frame starts"
  },
  {
   "property": "C141",
   "status": "proved",
   "theorems": [
    "SunPhy.C141.C141_bits",
    "SunPhy.C141.C141_octets",
    "SunPhy.C141.C141_burst"
   ],
   "note": "exact arithmetic; frame start known; the message bits not contained in the frame (C81) are not recovered"
  },
  {
   "property": "C142",
   "status": "proved",
   "theorems": [
    "SunPhy.C142.C142_bits",
    "SunPhy.C142.C142_octets",
    "SunPhy.C142.C142_fading"
   ],
   "note": "exact arithmetic; frame start known"
  },
  {
   "property": "C143",
   "status": "proved",
   "theorems": [
    "SunPhy.C143.C143_bits",
    "SunPhy.C143.C143_octets",
    "SunPhy.C143.C143_fading"
   ],
   "note": "exact arithmetic"
  },
  {
   "property": "C144",
   "status": "proved",
   "theorems": [
    "SunPhy.C144.C144_values",
    "SunPhy.C144.C144_bits",
    "SunPhy.C144.C144_ofdm",
    "SunPhy.C144.C144_fsk_refused",
    "SunPhy.C144.C144_fsk_thirds",
    "SunPhy.C144.C144_fsk_nonrecursive"
   ],
   "note": "exact arithmetic for the samples of MR-FSK"
  },
  {
   "property": "C145",
   "status": "proved",
   "theorems": [
    "SunPhy.C145.C145_octets",
    "SunPhy.C145.C145_one",
    "SunPhy.C145.C145_wave"
   ],
   "note": "exact arithmetic; the receiver is told which tones are lost"
  },
  {
   "property": "C146",
   "status": "proved",
   "theorems": [
    "SunPhy.C146.C146_dsss_refused",
    "SunPhy.C146.C146_dsss_sent",
    "SunPhy.C146.C146_places",
    "SunPhy.C146.C146_mdsss"
   ],
   "note": "exact arithmetic for the samples"
  },
  {
   "property": "C147",
   "status": "proved",
   "theorems": [
    "SunPhy.C147.C147_small",
    "SunPhy.C147.C147_refused",
    "SunPhy.C147.C147_powers",
    "SunPhy.C147.C147_accepted"
   ],
   "note": "double precision division as binary64 without overflow and underflow; the logarithm of the C library is a parameter"
  },
  {
   "property": "C148",
   "status": "proved",
   "theorems": [
    "SunPhy.C148.C148_fsk_bits",
    "SunPhy.C148.C148_energy",
    "SunPhy.C148.C148_zero",
    "SunPhy.C148.C148_fsk",
    "SunPhy.C148.C148_oqpsk",
    "SunPhy.C148.C148_ofdm"
   ],
   "note": "exact arithmetic for the samples"
  },
  {
   "property": "C149",
   "status": "proved",
   "theorems": [
    "SunPhy.C149.C149_ofdm",
    "SunPhy.C149.C149_fsk"
   ],
   "note": ""
  },
  {
   "property": "C150",
   "status": "proved",
   "theorems": [
    "SunPhy.C150.C150_exact",
    "SunPhy.C150.C150_attained",
    "SunPhy.C150.C150_sixteen",
    "SunPhy.C150.C150_least",
    "SunPhy.C150.C150_six",
    "SunPhy.C150.C150_five",
    "SunPhy.C150.C150_not_differences"
   ],
   "note": "For MCS 5 and 6 (16-QAM tones) the distance is not a function of the number of differing bits; C150_sixteen gives it exactly in terms of the pairs of bits, with bounds per differing bit, C150_least/C150_five/C150_six the smallest distance and where it is attained, C150_not_differences that it depends on more than the differences."
  },
  {
   "property": "C151",
   "status": "proved",
   "theorems": [
    "SunPhy.C151.C151_constructor",
    "SunPhy.C151.C151_flat",
    "SunPhy.C151.C151_other",
    "SunPhy.C151.C151_refused",
    "SunPhy.C151.C151_start"
   ],
   "note": "Model/PilotShapes.lean; which exception numpy raises there (TypeError or ValueError, depending on the release) is a parameter."
  },
  {
   "property": "C152",
   "status": "proved",
   "theorems": [
    "SunPhy.C152.C152_fsk",
    "SunPhy.C152.C152_integer",
    "SunPhy.C152.C152_half",
    "SunPhy.C152.C152_half_integer",
    "SunPhy.C152.C152_differences",
    "SunPhy.C152.C152_quarter",
    "SunPhy.C152.C152_closest",
    "SunPhy.C152.C152_oqpsk",
    "SunPhy.C152.C152_half_sine",
    "SunPhy.C152.C152_long"
   ],
   "note": "exact arithmetic"
  },
  {
   "property": "C153",
   "status": "proved",
   "theorems": [
    "SunPhy.C153.C153_ofdm",
    "SunPhy.C153.C153_ofdm_attained",
    "SunPhy.C153.C153_fsk",
    "SunPhy.C153.C153_fsk_bits",
    "SunPhy.C153.C153_dsss",
    "SunPhy.C153.C153_dsss_attained",
    "SunPhy.C153.C153_mdsss"
   ],
   "note": "MR-FSK with the exact length of the time axis (C76, C109 for doubles)"
  },
  {
   "property": "C154",
   "status": "proved",
   "theorems": [
    "SunPhy.C154.C154_multipath",
    "SunPhy.C154.C154_early",
    "SunPhy.C154.C154_late",
    "SunPhy.C154.C154_oscillator",
    "SunPhy.C154.C154_octets"
   ],
   "note": "exact arithmetic; the receiver is Spec/OfdmBlindSync.lean, built from the receivers of C120, C124, C127 and C133"
  }
 ]
}