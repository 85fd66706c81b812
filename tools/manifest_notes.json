{
 "C04": {
  "status": "partial",
  "note": "False as stated: with equal flags to_int reads the opposite bit order of to_bin (C04_same_flag_false, C04_same_flag_reverses). Proved: to_bin, and inversion with opposite flags (C04_inverse_partial)."
 },
 "C18": {
  "status": "partial",
  "note": "False as stated: for MCS 4 and 6 (rate 3/4) the header takes 1.5 times the predetermined number of symbols (C18_false). Proved: the predetermined number for all other supported MCS (C18_partial) and the exact number for every configuration (C18_exact)."
 },
 "C20": {
  "status": "partial",
  "note": "False for the 16-QAM MCS (C20_qam16_false): the code composes the two permutations in the other order, i(j(k)) (C20_actual). Proved as stated for MCS 0..4, where the orders agree (C20_partial)."
 },
 "C22": {
  "status": "partial",
  "note": "False when no padding is needed (possible only for particular lengths): then the whole tail is left as keystream (C22_no_pad, C22_no_pad_false). Proved as stated whenever at least one padding bit is inserted (C22_partial); C22_octets lists exactly which octet messages are affected."
 },
 "C30": {
  "status": "partial",
  "note": "False for MCS 7: the range check lets it through and the table lookup raises IndexError (C30_mcs7). Everything else is proved as stated: acceptance (C30_accepts, C30_supported), UnsupportedError (C30_unsupported), ValueError otherwise (C30_value_error_partial)."
 },
 "C43": {
  "status": "partial",
  "note": "False for non-integer modulation indices. Proved: the exact phase-continuity condition at every symbol boundary (C43_boundary_iff), continuity for every integer-index configuration (C43_integer_index_partial), and that for 2-FSK and for 4-FSK (indices that are ints or floats) frames are continuous exactly for integer indices (C43_2fsk_iff, C43_4fsk_iff)."
 },
 "C44": {
  "status": "partial",
  "note": "Proved in exact arithmetic (C44_exact_partial, C44_length, C44_outcome); false in binary64, where the rounded arange step can give one sample too many (C44_double_fails)."
 },
 "C45": {
  "status": "partial",
  "note": "Only the argument checks exist in the code (C45_arguments_partial); the mode switch call returns no signal (C45_no_signal) and its header builder always raises ValueError (C45_header_fails)."
 },
 "C50": {
  "status": "partial",
  "note": "False for PSDUs of two or more 126-bit blocks (C50_false): the code uses the index formula of one block for the whole PSDU and negative indices wrap around. Proved: the PHR interleaver and one-block PSDUs are permutations (C50_phr, C50_one_block_partial); exactly which coded bits are lost for every length (C50_lost); it never raises (C50_total)."
 },
 "C58": {
  "status": "partial",
  "note": "Proved for all bands except 2450 MHz (C58_pilot_partial); for 2450 MHz the pilot differs from the code in exactly chip 78 (C58_2450). On the returned signal: C58_api."
 },
 "C61": {
  "status": "partial",
  "note": "False (C61_false): I and Q chips of a pair are transmitted simultaneously (C61_aligned). On the returned signal: C61_api."
 },
 "C66": {
  "status": "partial",
  "note": "False in general (C66_false): the code takes the data rate for the chip rate. It holds exactly for rate mode 3 outside 2450 MHz (C66_exact_partial). On the returned signal: C66_api."
 },
 "C53": {
  "status": "partial",
  "note": "False in the 4-bit spreading configurations (C53_false): _DSSS raises ValueError whenever the number of 63-bit blocks is odd. Exact condition: C53_exact; all one-bit configurations: C53_one_bit_partial."
 },
 "C54": {
  "status": "partial",
  "note": "False (C54_false): the MDSSS multiplexer ignores the encoded bits, so all messages of the same size give the same signal."
 },
 "C55": {
  "status": "partial",
  "note": "False for rate modes 0 and 1 with an odd number of blocks. Exact condition: C55_exact; rate modes 2 and 3: C55_uncoded_partial."
 },
 "C56": {
  "status": "partial",
  "note": "False (C56_false): codewords 4..7 are all zero for every size. Actual codewords: C56_actual; words 0..3 are distinct: C56_distinct_partial."
 },
 "C62": {
  "status": "partial",
  "note": "False when 32 divides samples_per_symbol (C62_false, C62_singular); otherwise proved (C62_finite_partial), with the half sine support (C62_half_sine), the limit at the singularity (C62_limit) and the exact condition for a non-zero sample (C62_nonzero)."
 },
 "C59": {
  "status": "partial",
  "note": "False from 8 octets on (C59_false). Exact: C59_exact says which message bits are not transmitted; different lengths always differ (C59_length); messages of at most 7 octets are distinguished (C59_short_partial)."
 },
 "C67": {
  "status": "proved",
  "note": "Spec/OfdmReference.lean gives the transmitter in closed form over exact complex numbers."
 },
 "C68": {
  "status": "proved",
  "note": "Spec/OqpskReference.lean gives the transmitter in closed form."
 },
 "C69": {
  "status": "proved",
  "note": "Spec/FskReference.lean gives the transmitter in closed form. Bits (C69_bits) hold as is; samples (C69_reference, C69_bytes) in exact arithmetic - the number of samples in double precision is C44."
 },
 "C70": {
  "status": "proved",
  "note": "Model/OfdmCtor.lean; the power-of-two test is read exactly (what its rounding changes from 2^29 on is C147)."
 },
 "C71": {
  "status": "proved",
  "note": "Exact companion of C18.",
  "theorems": [
   "SunPhy.C18.C18_exact"
  ]
 },
 "C72": {
  "status": "proved",
  "note": "Exact companion of C20.",
  "theorems": [
   "SunPhy.C20.C20_actual"
  ]
 },
 "C73": {
  "status": "proved",
  "note": "Exact companion of C22.",
  "theorems": [
   "SunPhy.C22.C22_octets",
   "SunPhy.C22.C22_no_pad"
  ]
 },
 "C74": {
  "status": "proved",
  "note": "Exact companion of C30.",
  "theorems": [
   "SunPhy.C30.C30_accepts",
   "SunPhy.C30.C30_supported",
   "SunPhy.C30.C30_unsupported",
   "SunPhy.C30.C30_mcs7",
   "SunPhy.C30.C30_errors"
  ]
 },
 "C75": {
  "status": "proved",
  "note": "Exact companion of C43.",
  "theorems": [
   "SunPhy.C43.C43_boundary_iff",
   "SunPhy.C43.C43_2fsk_iff"
  ]
 },
 "C76": {
  "status": "proved",
  "note": "Exact companion of C44.",
  "theorems": [
   "SunPhy.C44.C44_length",
   "SunPhy.C44.C44_outcome"
  ]
 },
 "C77": {
  "status": "proved",
  "note": "Exact companion of C50.",
  "theorems": [
   "SunPhy.C50.C50_lost",
   "SunPhy.C50.C50_total",
   "SunPhy.C50.C50_phr"
  ]
 },
 "C78": {
  "status": "proved",
  "note": "Exact companion of C53 and C55.",
  "theorems": [
   "SunPhy.C63.C53_exact",
   "SunPhy.C63.C55_exact"
  ]
 },
 "C79": {
  "status": "proved",
  "note": "Exact companion of C54.",
  "theorems": []
 },
 "C80": {
  "status": "proved",
  "note": "Exact companion of C56.",
  "theorems": [
   "SunPhy.C56.C56_actual"
  ]
 },
 "C81": {
  "status": "proved",
  "note": "Exact companion of C59.",
  "theorems": [
   "SunPhy.C59.C59_exact",
   "SunPhy.C59.C59_length"
  ]
 },
 "C82": {
  "status": "proved",
  "note": "Exact companion of C61.",
  "theorems": [
   "SunPhy.C60.C61_aligned"
  ]
 },
 "C83": {
  "status": "proved",
  "note": "Exact companion of C62.",
  "theorems": [
   "SunPhy.C62.C62_singular",
   "SunPhy.C62.C62_limit",
   "SunPhy.C62.C62_nonzero",
   "SunPhy.C62.C62_half_sine"
  ]
 },
 "C84": {
  "status": "proved",
  "note": "Exact companion of C66.",
  "theorems": []
 },
 "C85": {
  "status": "proved",
  "note": "Exact companion of C04.",
  "theorems": [
   "SunPhy.C04.C04_to_bin",
   "SunPhy.C04.C04_same_flag_reverses"
  ]
 },
 "C86": {
  "status": "proved",
  "note": "Exact companion of C58.",
  "theorems": [
   "SunPhy.C57.C58_2450"
  ]
 },
 "C87": {
  "status": "proved",
  "note": "final state of the object after bitsToIQ of all three modulators against the reference transmitters (O-QPSK: any number of bits, standard modes)"
 },
 "C88": {
  "status": "proved",
  "note": "distance on the transmitted bit list of the API (C69 reference), through whitening, interleaving and both encoders"
 },
 "C89": {
  "status": "proved",
  "note": "distance on the attribute payload_interleaved after both calls"
 },
 "C90": {
  "status": "proved",
  "note": "count of pilots per tone over any window of one cycle, attached to the frame of the API"
 },
 "C91": {
  "status": "proved",
  "note": "energy of windows of the samples returned by bitsToIQ, exact real arithmetic"
 },
 "C92": {
  "status": "proved",
  "note": "Model/ModulationsFull.lean; C92_columns shows that the column model used elsewhere is its restriction"
 },
 "C93": {
  "status": "proved",
  "note": "Model/SubcarriersFull.lean; samples for even N_FFT and prefixes of at least one sample (the others are C27)"
 },
 "C94": {
  "status": "proved",
  "note": "Model/PolyFloat.lean models every rounded operation; C94_double instantiates IEEE 754 binary64"
 },
 "C95": {
  "status": "proved",
  "note": "uses the positions proved in C20_actual/C39_permutation"
 },
 "C96": {
  "status": "proved",
  "note": "C96_octets relates the condition to C53/C55"
 },
 "C97": {
  "status": "proved",
  "note": "lower bound over exact complex samples; built on C67, C89, C91"
 },
 "C98": {
  "status": "proved",
  "note": "exact complex samples; distance over the common prefix"
 },
 "C99": {
  "status": "proved",
  "note": "exact arithmetic"
 },
 "C100": {
  "status": "proved",
  "note": "exact arithmetic"
 },
 "C101": {
  "status": "proved",
  "note": "exact arithmetic"
 },
 "C102": {
  "status": "proved",
  "note": "exact arithmetic"
 },
 "C103": {
  "status": "proved",
  "note": "array entries are rationals (nan/inf not modelled); power-of-two test of the constructor read exactly (C147); exact complex arithmetic"
 },
 "C104": {
  "status": "proved",
  "note": "exact complex arithmetic"
 },
 "C105": {
  "status": "proved",
  "note": "exact real and complex arithmetic"
 },
 "C106": {
  "status": "proved",
  "note": "exact complex arithmetic"
 },
 "C107": {
  "status": "proved",
  "note": "samples in exact arithmetic"
 },
 "C108": {
  "status": "proved",
  "note": "exact real and complex arithmetic"
 },
 "C109": {
  "status": "proved",
  "note": "no overflow or underflow; IEEE 754 round-to-nearest is proved to satisfy the rounding hypothesis; the accuracy eta of numpy's complex exponential is a hypothesis"
 },
 "C110": {
  "status": "proved",
  "note": "samples in exact arithmetic (C109 bounds the rounding)"
 },
 "C111": {
  "status": "proved",
  "note": "overflow/underflow not modelled; accuracy of np.sin and np.cos is a hypothesis"
 },
 "C112": {
  "status": "proved",
  "note": "accuracy of np.fft.ifft, np.exp, np.sqrt and complex products is a hypothesis (Accurate); overflow/underflow not modelled"
 },
 "C113": {
  "status": "proved",
  "note": "thread switches between attribute accesses; separate objects: all schedules; shared object: the attributes listed in Model/Concurrent.lean are shared, see its header for what is not. The race theorems document a defect of the code (state kept in attributes)"
 },
 "C114": {
  "status": "proved",
  "note": "Model/MrOqpskRaw.lean; numpy scalars as arguments are not modelled, NaN/inf/None/list are the values 'other'"
 },
 "C115": {
  "status": "proved",
  "note": "Model/SpecialFloats.lean; the conversion of out-of-range values is a parameter; what the modulators do with the non-binary values of a NaN message: see C144 and C146"
 },
 "C116": {
  "status": "proved",
  "note": "bounds for more than 7 octets are small because the interleaver (C81) loses coded bits"
 },
 "C117": {
  "status": "proved",
  "note": "memory model: Model/Memory.lean, Model/MemoryWorld.lean; specification: Spec/Isolation.lean; arguments are messages (not complex arrays); private attributes are not written by the program"
 },
 "C118": {
  "status": "proved",
  "note": "memory model: Model/MemoryPilots.lean; specification: Spec/PilotArrays.lean; writes change entries, not shapes"
 },
 "C119": {
  "status": "proved",
  "note": "specification: Spec/OqpskSync.lean; chip timing is known to the receiver; messages of whole octets"
 },
 "C120": {
  "status": "proved",
  "note": "specification: Spec/OfdmEqualiser.lean, Spec/OfdmReceiver.lean; frame start known to the receiver up to the channel's delay; ideal (real-number) samples"
 },
 "C121": {
  "status": "proved",
  "note": "specification: Spec/FskDiscriminator.lean, Spec/FskSync.lean, Spec/FskReceiver.lean; exact arithmetic"
 },
 "C122": {
  "status": "proved",
  "note": "specification: Spec/OqpskGain.lean, Spec/OqpskSync.lean, Spec/OqpskReceiver.lean; exact arithmetic"
 },
 "C123": {
  "status": "proved",
  "note": "generalises C59 and C79 to bit messages that are not whole octets; exact arithmetic"
 },
 "C124": {
  "status": "proved",
  "note": "receiver in Spec/OfdmSync.lean; the correlation of the training fields at every offset is evaluated by the kernel in integers (packed in large numbers) with error bounds for the 128th roots of unity; exact arithmetic; builds on C120"
 },
 "C125": {
  "status": "proved",
  "note": "receiver in Spec/OfdmCarrier.lean; exact arithmetic; builds on C120; start of the frame known (C124 finds it without a turn)"
 },
 "C126": {
  "status": "proved",
  "note": "receiver in Spec/OqpskCarrier.lean; exact arithmetic; builds on C122"
 },
 "C127": {
  "status": "proved",
  "note": "receiver in Spec/OfdmAcquire.lean; exact arithmetic; one complex factor as channel (C125 has multipath with known start); builds on C124"
 },
 "C128": {
  "status": "proved",
  "note": "Model/BitsFull.lean; the width is a non-negative integer; the value of a character for int() is a parameter (ASCII digits in the table theorem)"
 },
 "C129": {
  "status": "proved",
  "note": "Model/RateEncoderFull.lean; arrays of finite real numbers in one dimension (entries of A and B are 0 or 1, exact in every dtype)"
 },
 "C130": {
  "status": "proved",
  "note": "Model/Console.lean, Model/ConsoleOfdm.lean; two texts are parameters: str of the modulation factor (a float) and str of an integer array; a line is the argument of one call of print; the inner Ofdm_modulator objects of Mr_ofdm_modulator are created without the flag and print nothing"
 },
 "C131": {
  "status": "proved",
  "note": "exact arithmetic; frames follow each other without gap and start at a known sample (C110, C119, C124, C127 find the start)"
 },
 "C132": {
  "status": "proved",
  "note": "exact arithmetic; windows that straddle two symbols are not covered (they do leak), nor is the last half of the fourth short symbol, which is negated"
 },
 "C133": {
  "status": "proved",
  "note": "exact arithmetic; the receiver is told where the frame starts"
 },
 "C134": {
  "status": "proved",
  "note": "exact arithmetic; octet and bit messages of any non-zero length"
 },
 "C135": {
  "status": "proved",
  "note": "exact arithmetic"
 },
 "C136": {
  "status": "proved",
  "note": "exact arithmetic"
 },
 "C137": {
  "status": "proved",
  "note": "exact arithmetic; the receiver is told which tones are lost"
 },
 "C138": {
  "status": "proved",
  "note": "exact arithmetic and machine arithmetic as in C109, C111, C112"
 },
 "C139": {
  "status": "proved",
  "note": "exact arithmetic; the receiver is told which tones are lost; for schemes of rate 3/4 see C145"
 },
 "C140": {
  "status": "proved",
  "note": "exact arithmetic; the receiver is told which symbols are lost and where the frame starts"
 },
 "C141": {
  "status": "proved",
  "note": "exact arithmetic; frame start known; the message bits not contained in the frame (C81) are not recovered"
 },
 "C142": {
  "status": "proved",
  "note": "exact arithmetic; frame start known"
 },
 "C143": {
  "status": "proved",
  "note": "exact arithmetic"
 },
 "C144": {
  "status": "proved",
  "note": "exact arithmetic for the samples of MR-FSK"
 },
 "C145": {
  "status": "proved",
  "note": "exact arithmetic; the receiver is told which tones are lost"
 },
 "C146": {
  "status": "proved",
  "note": "exact arithmetic for the samples"
 },
 "C147": {
  "status": "proved",
  "note": "double precision division as binary64 without overflow and underflow; the logarithm of the C library is a parameter"
 },
 "C148": {
  "status": "proved",
  "note": "exact arithmetic for the samples"
 },
 "C149": {
  "status": "proved",
  "note": ""
 },
 "C150": {
  "status": "proved",
  "note": "For MCS 5 and 6 (16-QAM tones) the distance is not a function of the number of differing bits; C150_sixteen gives it exactly in terms of the pairs of bits, with bounds per differing bit, C150_least/C150_five/C150_six the smallest distance and where it is attained, C150_not_differences that it depends on more than the differences."
 },
 "C151": {
  "status": "proved",
  "note": "Model/PilotShapes.lean; which exception numpy raises there (TypeError or ValueError, depending on the release) is a parameter."
 },
 "C152": {
  "status": "proved",
  "note": "exact arithmetic"
 },
 "C153": {
  "status": "proved",
  "note": "MR-FSK with the exact length of the time axis (C76, C109 for doubles)"
 },
 "C154": {
  "status": "proved",
  "note": "exact arithmetic; the receiver is Spec/OfdmBlindSync.lean, built from the receivers of C120, C124, C127 and C133"
 }
}