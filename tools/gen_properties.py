#!/usr/bin/env python3
"""Writes /verif/properties.jsonl (one JSON object per line). Source of the property list."""
import json, os
B='sun_phy/tools/bits.py'; P='sun_phy/tools/pn9.py'; O='sun_phy/tools/operations.py'; M='sun_phy/tools/modulations.py'
R='sun_phy/mr_ofdm/rate_encoder.py'; F='sun_phy/mr_ofdm/fields.py'; D='sun_phy/mr_ofdm/ofdm_modulator.py'
MO='sun_phy/mr_ofdm/mr_ofdm_modulator.py'; FS='sun_phy/mr_fsk/mr_fsk_modulator.py'; Q='sun_phy/mr_o_qpsk/mr_o_qpsk_modulator.py'
props=[]
def p(title, statement, quantifier, why, anchors):
    props.append(dict(id=f"C{len(props)+1:02d}", title=title, statement=statement, quantifier=quantifier, why_tests_cant=why, anchors=anchors))

# ---- shared tools
p("Byte messages are expanded least-significant bit first, losslessly",
  "to_binary_array(m) yields exactly 8*len(m) bits, bit 8*i+j of the result being bit j (weight 2**j) of octet i; the octets can be recovered from the bits, so no two octet messages give the same bit message.",
  "every non-empty sequence of octets, given as bytes, bytearray, list or 1-D integer array",
  "256**n messages for every length n; a test samples a few literals.", [f"{B}:to_binary_array"])
p("Which octet messages are accepted, and with which exception they are refused",
  "to_binary_array / bytesToIQ input conversion succeeds iff the argument is bytes, bytearray, list or 1-D ndarray, is non-empty and every entry truncated toward zero lies in 0..255; empty or out of range arguments raise ValueError (OverflowError for a list with a number beyond 64 bits), str and other types raise TypeError. In particular bytesToIQ(b'') raises ValueError for all three modulators.",
  "every argument kind and every sequence of numbers",
  "The accept/reject boundary is over an unbounded set of values and lengths.", [f"{B}:to_binary_array", f"{FS}:bytesToIQ", f"{MO}:bytesToIQ", f"{Q}:bytesToIQ"])
p("Bit messages are validated before modulation",
  "check_binary_array accepts exactly the non-empty one-dimensional lists/arrays whose entries lie in [0,1], returns an array of 0/1 of the same length, is the identity on 0/1 arrays, and otherwise raises ValueError (shape, range, empty) or TypeError (other types, bytes included).",
  "every argument kind, shape and every sequence of rational entries",
  "Unbounded values and lengths; the fractional-entry corner (0 < x < 1 is silently truncated to 0) is not something sample tests look at.", [f"{B}:check_binary_array"])
p("Integer <-> bit-array helpers are inverse of each other",
  "to_bin(n, w, MSB_first) has length w and denotes n whenever 0 <= n < 2**w, and to_int(to_bin(n, w, flag), flag) = n for w <= 8.",
  "every number, width and bit order flag",
  "Depends on every (number, width, order) combination; the flag is interpreted the opposite way by the two functions, which palindromic samples do not reveal.", [f"{B}:to_bin", f"{B}:to_int", f"{FS}:_bin"])
p("The PN9 generator has maximal period from every usable seed",
  "For every seed that is non-zero modulo 512 the output sequence of Pn9 has least period exactly 511, never visits state 0 and contains 256 ones per period; seed 0 produces only zeros; the output satisfies y[n] = y[n-4] xor y[n-9].",
  "every integer seed, every number of steps",
  "511 states times unbounded time.", [f"{P}:Pn9.next", f"{P}:Pn9.nextN"])
p("PN9 bookkeeping: chunked reads, reset and current value",
  "nextN(a) followed by nextN(b) yields nextN(a+b); reset() makes the generator replay from its construction seed whatever was read before, reset(s) behaves as a fresh Pn9(s); a generator constructed from get_current_value() continues the sequence of the original.",
  "every sequence of next/nextN/reset/get_current_value calls on one generator",
  "Quantifies over all histories of calls.", [f"{P}:Pn9"])
p("Data whitening is an involution with a data-independent keystream",
  "scrambler(scrambler(m, s), s) = m, the length is preserved, and scrambler(m) xor scrambler(m') = m xor m' for equally long messages.",
  "every bit message, every seed",
  "All messages of all lengths.", [f"{O}:scrambler"])
p("Constellation mapping is reversible, Gray coded and has the documented levels",
  "BPSK/QPSK/QAM16 convert maps each group of 1/2/4 bits to the documented point; the bits can be recovered from the points; horizontally or vertically adjacent QPSK/QAM16 points differ in exactly one bit; the number of points is bits/bits_per_symbol.",
  "every bit array whose length is a multiple of bits_per_symbol, with any number of OFDM symbols",
  "All bit arrays of all sizes.", [f"{M}:BPSK", f"{M}:QPSK", f"{M}:QAM16"])
p("Mapped data tones have unit average power",
  "For each modulation, the mean squared magnitude over the whole alphabet multiplied by the square of the MR-OFDM modulation factor is exactly 1.",
  "the three modulations",
  "A statement about exact real arithmetic (square roots), not about floats compared with a tolerance.", [f"{M}:QAM16", f"{MO}:K_MOD"])
p("The rate 1/2 encoder is the K=7 (133,171) convolutional code",
  "From the zero state, output 2n is x[n]+x[n-2]+x[n-3]+x[n-5]+x[n-6] and output 2n+1 is x[n]+x[n-1]+x[n-2]+x[n-3]+x[n-6] modulo 2 (x = 0 before the start); the output length is twice the input length. A seed given to the constructor acts as if its six lowest bits had been encoded before; reset() restores the zero state, and reset(seed) the state of a new encoder exactly for seeds below 64.",
  "every input bit sequence",
  "Infinite input space; the code has 64 states and unbounded inputs.", [f"{R}:Rate_one_half"])
p("Streaming the rate encoders in pieces gives the same code bits as one call",
  "sequence(x) followed by sequence(y) on the same encoder produces sequence(x ++ y); for Rate_three_quarter likewise when both sizes are multiples of 3.",
  "every way of splitting every input into successive calls",
  "Quantifies over call histories.", [f"{R}:Rate_one_half.sequence", f"{R}:Rate_three_quarter.sequence"])
p("The rate 3/4 encoder is the punctured rate 1/2 code and is decodable",
  "Rate_three_quarter.sequence(x) raises ValueError iff len(x) is not a multiple of 3, UnboundLocalError on an empty input, and otherwise equals the rate 1/2 output with positions 3 and 4 of every 6 removed (of A0 B0 A1 B1 A2 B2 it keeps A0 B0 A1 B2), has length 4/3 of the input, and different inputs give different outputs.",
  "every input bit sequence",
  "Unbounded inputs.", [f"{R}:Rate_three_quarter"])
p("Error correction strength of the MR-OFDM / MR-O-QPSK convolutional code",
  "Two different bit messages of equal length, each followed by the 6 zero tail bits, have rate 1/2 encodings that differ in at least 10 positions (at least 5 positions after rate 3/4 puncturing).",
  "every pair of distinct equally long messages",
  "Minimum distance is a property of all pairs of infinite families of codewords.", [f"{R}:Rate_one_half", f"{R}:Rate_three_quarter", f"{Q}:_FEC"])
# ---- MR-OFDM header
p("MR-OFDM header field layout",
  "For MCS 0..6, length 1..2047 and scrambler 0..3 the header is phr_length bits: bits 0-4 the MCS, 6-16 the length, 19-20 the scrambler index (most significant bit first), 22-29 the HCS, all others zero; so rate, length and scrambler can be read back from the header.",
  "every MCS, every frame length, every scrambler index, every header size of at least 36",
  "7*2047*4 headers times sizes; boundaries at 0, 2047, 2048.", [f"{F}:PHR", f"{F}:_uintarr"])
p("Every acceptable MR-OFDM frame length encodes, others are refused",
  "Building the header (and bitsToIQ) raises ValueError iff the number of whole octets is 0 or exceeds 2047 (2048 passes the range check of the constructor but is refused when the field is encoded).",
  "every frame length",
  "Boundary: the constructor check admits 2048, which only fails later.", [f"{F}:PHR", f"{F}:_uintarr"])
p("The MR-OFDM HCS is the GF(2) CRC of the header",
  "Although computed with real-valued polynomial division followed by mod 2, the HCS always has 8 bits and is the one's complement of (x**22*(x**7+...+1) + x**8*M(x)) mod x**8+x**2+x+1 over GF(2).",
  "every 22-bit header prefix",
  "2**22 inputs; correctness rests on integer division commuting with reduction modulo 2 and on the trimming of leading zeros.", [f"{F}:HCS_calculation"])
p("Headers are protected: distinct headers differ in at least 4 bits",
  "Any two distinct 22-bit prefixes with their MR-OFDM HCS (30 bits), and any two distinct 16-bit MR-O-QPSK PHR prefixes with their HCS (24 bits), differ in at least 4 positions, so every 1, 2 or 3 bit error is detected.",
  "every pair of distinct headers",
  "2**44 pairs.", [f"{F}:HCS_calculation", f"{Q}:_PHR"])
p("The MR-OFDM header occupies the predetermined number of OFDM symbols",
  "For every supported MCS/option/interleaving the PHR is transmitted in PHR_N_SYMBOLS[interleaving][option] OFDM symbols, independently of the payload MCS (a receiver must find the payload before knowing the MCS).",
  "every supported configuration and message",
  "Configuration-dependent; the repo tests only look at the header of MCS 3.", [f"{MO}:_PHR", f"{MO}:PHR_N_SYMBOLS"])
# ---- interleavers
p("MR-OFDM interleaving is a reversible permutation of each block",
  "For every supported MCS, option and interleaving mode the interleaver permutes the coded bits inside each interleaving block: an explicit de-interleaver restores every payload, no bit is duplicated and none is lost.",
  "every supported configuration, every coded payload of any number of blocks",
  "All payloads of all sizes; MCS 5/6 use a second permutation no table test covers.", [f"{MO}:_interleaver"])
p("MR-OFDM interleaving matches the two-step permutation of the standard",
  "Coded bit k is sent to position j(i(k)): first permutation i, then second permutation j applied to the result of the first.",
  "every supported MCS and every bit index",
  "Only visible for QAM16 (s > 1), which no table test covers.", [f"{MO}:_interleaver"])
# ---- MR-OFDM payload
p("MR-OFDM payload padding is minimal and fills whole symbols",
  "The padded payload is the message followed by zeros, its size is the least multiple of bits_per_symbol() that is at least len+6, and after coding it fills exactly SF * (that multiple) OFDM symbols (SF the frequency spreading).",
  "every message length, every supported configuration",
  "Unbounded lengths.", [f"{MO}:_padding", f"{MO}:_payload", f"{MO}:bits_per_symbol"])
p("The convolutional encoder is flushed by six zero tail bits after the message",
  "In the scrambled MR-OFDM payload the six bits following the message are zero, so the encoder is back in state 0 after the tail.",
  "every message, every supported configuration",
  "Fails only for particular message lengths (no padding), which no table test hits.", [f"{MO}:_payload"])
p("OFDM symbol layout: data, pilots, DC and guard tones never collide",
  "In every OFDM symbol DC and guard tones are zero, the pilots sit exactly at the current pilot set, and the data values occupy the remaining tones in increasing frequency order, each exactly once; the data can be read back.",
  "every MR-OFDM option and pilot set, every number of symbols, every data; and every valid Ofdm_modulator configuration",
  "All pilot-set phases and symbol counts.", [f"{D}:_add_pilots_and_padding", f"{MO}:PILOTS_INDICES"])
p("Pilot set and pilot PN9 sequence run on from header to payload and across calls",
  "Modulating message a then b on one Ofdm_modulator gives the concatenation that one call on a++b gives, and starting a new modulator from get_pilot_set_index()/get_pn9_value() continues exactly where the old one stopped; hence symbol n of the frame uses pilot set n mod (number of sets) and the PN9 values following those of symbol n-1.",
  "every sequence of calls and every split of the symbols",
  "Quantifies over histories.", [f"{D}:Ofdm_modulator", f"{MO}:_payload"])
p("Frequency spreading repeats each value with a unit-magnitude rotation",
  "With spreading 2 or 4 the spread symbol has 2x/4x the length, contains the original values unchanged in their documented segment, every copy is the original times a 4th root of unity given by its tone index, and the message can be recovered from each segment alone.",
  "every symbol matrix",
  "All complex values, all sizes.", [f"{D}:_frequency_spread"])
p("The IFFT stage is invertible and preserves energy",
  "subcarriersToIQ without prefix yields N samples from which a unitary DFT plus shift recovers the subcarriers exactly; the sum of squared magnitudes is unchanged.",
  "every N and every vector of N complex subcarriers (exact arithmetic)",
  "Statement over all complex vectors.", [f"{D}:_ifft", f"{D}:subcarriersToIQ"])
p("Cyclic prefix",
  "With CP <= 1 and N*CP >= 1 each symbol is preceded by a copy of its last int(N*CP) samples and has int(N*CP)+N samples; the body is unchanged. For 0 < N*CP < 1 and for CP > 1 the whole symbol is repeated.",
  "every symbol, every CP fraction",
  "The corner int(N*CP) = 0 with CP > 0 behaves differently.", [f"{D}:_cyclic_prefix"])
p("MR-OFDM frame size, duration and sampling rate",
  "bitsToIQ returns 5N + 5N/2 + (5N/4)*(header symbols + payload symbols) samples at f with f*120us = 5N/4, i.e. every symbol lasts 120 us.",
  "every supported configuration and acceptable message",
  "All message lengths.", [f"{MO}:bitsToIQ"])
p("STF and LTF structure",
  "The STF is three identical symbols followed by a fourth whose last N/2 samples are negated, each symbol being periodic; the LTF is a half-symbol prefix and two identical symbols; both are independent of MCS, message and history.",
  "every option",
  "Exact statement about the time-domain samples (a tolerance test cannot state periodicity).", [f"{MO}:_STF", f"{MO}:_LTF"])
p("Which MR-OFDM configurations are accepted",
  "The constructor succeeds iff MCS/option is a supported combination, interleaving is 0/1 and scrambler 0..3; unsupported combinations of in-range values raise UnsupportedError, everything else ValueError.",
  "every integer argument tuple",
  "All integers, in particular MCS = 7, which passes the documented range check.", [f"{MO}:Mr_ofdm_modulator.__init__"])
p("MR-OFDM: every acceptable octet message is modulated and different messages give different signals",
  "bytesToIQ succeeds for every message of 1..2047 octets, and two messages with the same samples are equal (exact arithmetic).",
  "every supported configuration, every pair of messages",
  "End-to-end statement over 256**2047 messages.", [f"{MO}:bytesToIQ"])
# ---- history
p("Modulators carry no hidden state between frames",
  "The result of bitsToIQ/bytesToIQ on an Mr_ofdm_modulator, Mr_fsk_modulator or Mr_o_qpsk_modulator depends only on the constructor parameters and the message, not on the calls (successful or failing) made before.",
  "every history of calls on one modulator object",
  "Quantifies over all call histories including exceptions.", [f"{MO}:bitsToIQ", f"{FS}:bitsToIQ", f"{Q}:bitsToIQ"])
# ---- MR-FSK
p("Which MR-FSK configurations are accepted",
  "The constructor succeeds iff symbolRate truncates to a positive integer, 0.25 <= FSKModulationIndex <= 2.5, SFD, scheme and FCS type in {0,1}, preamble length in 4..1000 and modulation '2FSK' or '4FSK'; wrong values raise ValueError and wrong types TypeError.",
  "every argument tuple",
  "Unbounded numeric arguments and order of checks.", [f"{FS}:Mr_fsk_modulator.__init__"])
p("MR-FSK synchronisation header",
  "The frame starts with phyFSKPreambleLength repetitions of the 8 (16) bit preamble and a 16 (32) bit SFD; the SFD identifies phyMRFSKSFD and coded/uncoded uniquely for each modulation.",
  "every configuration and message",
  "All preamble lengths, all configurations.", [f"{FS}:_SHR", f"{FS}:SFD"])
p("MR-FSK PHY header fields",
  "The 16 header bits are 0 00 FCS DW L10..L0 with L the number of whole octets, most significant bit first, so FCS type, whitening flag and length can be read back; messages of 2048 octets or more raise ValueError.",
  "every message length and configuration",
  "Boundary at 2**11.", [f"{FS}:_PHR"])
p("MR-FSK FEC terminates the trellis",
  "After header, payload and the three tail bits, both convolutional encoders (RSC and NRNSC) are in state 0.",
  "every message, both schemes",
  "8 states reached by unbounded inputs, table of tail bits.", [f"{FS}:_FEC", f"{FS}:RSC_TAIL_BITS"])
p("MR-FSK FEC output size fits the interleaver",
  "For octet-aligned messages the coded size is 2*(16 + 8L + 3 + pad), pad in {5,13}, a multiple of 32, so interleaving never fails; non octet-aligned bit messages with FEC and interleaving always raise ValueError, and no other bit message of fewer than 2048 octets does.",
  "every message length",
  "Unbounded lengths.", [f"{FS}:_FEC", f"{FS}:_interleaver"])
p("MR-FSK FEC is decodable and corrects errors",
  "The RSC code is systematic (every second coded bit is the data bit), both codes are injective, and two different messages (with their tails) differ in at least 6 coded positions.",
  "every pair of distinct equally long messages, both schemes",
  "Minimum distance over all pairs.", [f"{FS}:_FEC"])
p("MR-FSK interleaving is a self-inverse block permutation",
  "The interleaver permutes bit pairs inside 32-bit blocks and applying it twice is the identity; sizes that are not multiples of 32 raise ValueError.",
  "every bit array",
  "All arrays of all sizes.", [f"{FS}:_interleaver"])
p("MR-FSK whitening never touches the header",
  "With whitening on, the first 16 (uncoded) or 32 (coded) bits after the SHR are the unwhitened header bits, and everything after is xored with the PN9 sequence of seed 511 from its beginning.",
  "every message and configuration",
  "All messages and configurations.", [f"{FS}:bitsToIQ"])
p("MR-FSK: frames can be decoded",
  "For each configuration, the transmitted bit sequence of any octet message of 1..2047 octets determines the message (an explicit receiver recovers it).",
  "every configuration and message",
  "End-to-end statement over all messages.", [f"{FS}:bitsToIQ", f"{FS}:bytesToIQ"])
p("MR-FSK modulation: deviations, envelope and samples per symbol",
  "In exact arithmetic the signal has 20 samples per symbol, constant unit envelope, and frequency +-h*rate/2 (2FSK) or +-h*rate/2, +-3h*rate/2 (4FSK) according to the documented table; the symbols can be recovered from the samples, the sampling frequency is 20*symbolRate.",
  "every configuration and message",
  "All messages and modulation indices.", [f"{FS}:_FSKModulator"])
p("MR-FSK signals are phase continuous",
  "At each symbol boundary the phase of the signal does not jump.",
  "every message, every admissible modulation index",
  "Holds for the modulation index used by the tables (h=1) and fails for others.", [f"{FS}:_FSKModulator"])
p("MR-FSK modulates every acceptable message",
  "bytesToIQ returns a signal for every configuration and every message of 1..2047 octets.",
  "every configuration and message length",
  "Failures depend on floating-point rounding of a length computation at particular message lengths.", [f"{FS}:_FSKModulator"])
p("MR-FSK mode switch",
  "modeSwitchToIQ rejects entries outside 0..3 (ValueError) and non-integers (TypeError), and for accepted entries produces a mode switch PPDU.",
  "every argument",
  "All integers.", [f"{FS}:modeSwitchToIQ", f"{FS}:_PHR_mode_switch"])
# ---- MR-O-QPSK
p("Which MR-O-QPSK configurations are accepted",
  "MDSSS is refused (UnsupportedError) exactly for the 470, 868, 920 and 950 MHz bands; every other configuration with spreading mode 0/1 and rate mode 0..3 is constructed, and rate/spreading modes outside these ranges never yield a signal.",
  "every band and every integer mode",
  "Unbounded integers; errors surface only at modulation time.", [f"{Q}:Mr_o_qpsk_modulator.__init__", f"{Q}:bitsToIQ"])
p("MR-O-QPSK PHY header",
  "The 24 header bits are SM RM1 RM0 0 0 L10..L0 followed by the 8-bit GF(2) CRC remainder of the first 16 bits; mode and length can be read back; lengths >= 2048 raise ValueError. Rate modes -1 and -2 are not refused here (their headers carry the rates 3 and 2, the two's complement); every other rate mode outside 0..3 raises ValueError.",
  "every band, mode and length",
  "All lengths; the CRC is computed by real-valued division with casts of negative numbers.", [f"{Q}:_PHR"])
p("Bit differential encoding is reversible",
  "_BDE(m, e) is the running xor of e and m; the message is recovered by xoring neighbouring bits; with M > 0 the encoder restarts at multiples of M.",
  "every bit message and initial state",
  "All messages.", [f"{Q}:_BDE"])
p("MR-O-QPSK FEC is the same convolutional code, padded to whole interleaver blocks",
  "The coded stream equals the (133,171) code applied to the data followed by 6 zeros and, for the PSDU, the least number of further zeros that makes the total a multiple of 63 bits; the encoder ends in state 0.",
  "every PHR and every octet-aligned PSDU",
  "All lengths.", [f"{Q}:_FEC"])
p("MR-O-QPSK interleaving loses nothing",
  "The interleaver output is a permutation of its input for the PHR and for the PSDU, whatever the PSDU length, so different coded PSDUs stay different.",
  "every message length",
  "Wrong only beyond the first 126-bit block, i.e. for messages of 8 octets or more; the table test uses 7 octets.", [f"{Q}:_interleaver"])
p("DSSS spreading tables are consistent codes",
  "All codewords of a table have the same length and are pairwise distinct; the (N,1) tables map 0 and 1 to complementary chips; minimum distances are N for (N,1) and 4, 6, 12 for (8,4), (16,4), (32,4).",
  "all tables",
  "A finite table, but all pairs.", [f"{Q}:DSSS"])
p("DSSS spreading is reversible",
  "The spread stream has length (len/n)*chips, alternates the codes of the configured tuple, the bits are recovered by table lookup, even when each chip block carries fewer errors than half the minimum distance.",
  "every bit message with length a multiple of the group size, every configured spreading",
  "All messages and all error patterns.", [f"{Q}:_DSSS"])
p("MR-O-QPSK DSSS modulates every acceptable message",
  "In DSSS mode bytesToIQ returns a signal for every band, rate mode and message of 1..2047 octets.",
  "every band, rate mode, message",
  "Depends on the parity of the number of interleaver blocks; the repo's smoke test message (12 octets) happens to work.", [f"{Q}:_DSSS", f"{Q}:bitsToIQ"])
p("MR-O-QPSK MDSSS transmits the message",
  "In MDSSS mode two different messages of equal length give different signals.",
  "every supported band, rate mode, pair of messages",
  "A statement about all pairs; smoke tests only check that a signal is returned.", [f"{Q}:_MDSSS", f"{Q}:_spreading_multiplexing"])
p("MR-O-QPSK MDSSS modulates every acceptable message",
  "In MDSSS mode bytesToIQ returns a signal for every supported band, rate mode and message of 1..2047 octets.",
  "every supported band, rate mode, message",
  "Depends on the number of interleaver blocks modulo 2.", [f"{Q}:_TPC", f"{Q}:bitsToIQ"])
p("The Hadamard encoder maps different 3-bit words to different codewords",
  "_hadamard_codeword(N, 3, i) are pairwise different for i in 0..7, codewords i and 7-i being complementary.",
  "every N = 2**x >= 4 and all index pairs",
  "All sizes N.", [f"{Q}:_hadamard_matrix", f"{Q}:_hadamard_codeword"])
p("Pilot insertion is reversible and periodic",
  "_insert_pilots places the band's pilot sequence before every PILOT_SPACING chips (the last group may be shorter); dropping the pilots restores the chips; the number of pilots is ceil(size/spacing).",
  "every chip sequence and band",
  "All lengths.", [f"{Q}:_insert_pilots"])
p("Pilot sequences are the band's SHR spreading code for bit 0",
  "For each band the pilot sequence equals the chip sequence that the SHR spreading assigns to bit 0.",
  "all bands",
  "A finite table, all chips.", [f"{Q}:PILOT_SEQUENCES", f"{Q}:SHR_SPREADING"])
p("MR-O-QPSK: different messages give different signals",
  "For each configuration (DSSS), two different messages give different signals.",
  "every band, rate mode and pair of messages",
  "End-to-end over all pairs of messages; fails from 8 octets on.", [f"{Q}:bytesToIQ", f"{Q}:_interleaver"])
p("MR-O-QPSK waveform: chips can be recovered from the samples",
  "The signal has chips/2*sps + sps - 1 samples, sample sps*m + j is (I_m + j Q_m) * pulse(j), so that chip pairs do not interfere and are recovered whenever the pulse has a non-zero sample; the returned sampling frequency is the configured data rate * samples_per_symbol.",
  "every chip sequence of even length, every samples_per_symbol >= 1 and pulse",
  "All chip sequences and pulse shapes.", [f"{Q}:_o_qpsk_modulator"])
p("MR-O-QPSK keeps I and Q offset by half a symbol",
  "The quadrature component is delayed by one chip with respect to the in-phase component (offset QPSK).",
  "every chip sequence",
  "Statement about all sample positions.", [f"{Q}:_o_qpsk_modulator"])
p("MR-O-QPSK pulse shapes are finite on the sampling grid",
  "half_sine vanishes outside [0, 2Tc], and the raised cosine pulse is evaluated away from its removable singularities.",
  "every samples_per_symbol",
  "All samples_per_symbol; only multiples of 32 hit the singularity.", [f"{Q}:half_sine", f"{Q}:raised_cosine"])
p("MR-O-QPSK frame size",
  "The chip count of a frame is SHR + PHR + PSDU with the sizes given by the band tables and the message length, always even.",
  "every configuration and message for which modulation succeeds",
  "All lengths.", [f"{Q}:bitsToIQ"])
# ---- appended as the model grew
p("MR-FSK convolutional encoders are the documented codes",
  "With FEC scheme 0 the coded stream is, bit by bit, the complement of the parity sums x[n]+x[n-2]+x[n-3] and x[n]+x[n-1]+x[n-2]+x[n-3] of header, payload, tail and padding; with scheme 1 it is the recursive systematic code with feedback 1+D+D^2+D^3, parity 1+D^2+D^3 and systematic second output.",
  "every bit array, both schemes, every position",
  "A statement about every position of every message.", [f"{FS}:_FEC"])
p("MR-FSK frame size",
  "The number of transmitted bits is the SHR size plus 16+8L bits without FEC, or twice (16+8L+3+pad) with FEC, for every octet message of 1..2047 octets.",
  "every configuration and message",
  "All lengths.", [f"{FS}:bitsToIQ"])
p("MR-O-QPSK sampling frequency corresponds to the chip rate",
  "The returned sampling frequency makes a chip pair (samples_per_symbol samples) last two chip periods of the band: f = chip rate * samples_per_symbol / 2, with 100 kchip/s (470, 868, 920, 950 MHz), 1 Mchip/s (780, 915, 917 MHz) and 2 Mchip/s (2450 MHz).",
  "every band, mode and samples_per_symbol",
  "The returned value is only meaningful relative to all configurations of the rate tables.", [f"{Q}:_o_qpsk_modulator", f"{Q}:bitsToIQ"])
p("MR-OFDM frames are those of a closed-form reference transmitter",
  "Every MR-OFDM frame equals, sample by sample, the frame given by formulas in the sample, tone and bit index: STF (four prefixed short training symbols, last half symbol negated), LTF, then header and payload symbols with whitening by the x^9+x^5+1 sequence, CRC-8 HCS, the 133/171 code (punctured for rate 3/4), the two-permutation interleaver, Gray mapping, frequency spreading, pilots of set n mod count with the PN9 signs, guard and DC tones zero and a 1/4 prefix; the returned rate is 1.25*N samples per 120 us.  (Deviations of the code from IEEE 802.15.4g - header 1.5 times longer for MCS 4 and 6, whitened tail when no padding is needed, zeros for an incomplete interleaver block - are part of the reference.)",
  "every supported configuration, every object history, every message of 1 to 2047 octets",
  "A full functional specification over all messages; tests compare a handful of stored frames.", [f"{MO}:bitsToIQ", f"{MO}:bytesToIQ", f"{D}:subcarriersToIQ"])
p("MR-O-QPSK frames are those of a closed-form reference transmitter",
  "Every MR-O-QPSK frame is either refused with ValueError (an odd number of 63-bit blocks with 4-bit spreading, or with MDSSS rate modes 0 and 1) or equals, sample by sample, the frame given by formulas in the chip and bit index: SHR, PHR with its CRC and spreading, coded, interleaved, (B)DE-encoded and spread or multiplexed PSDU with pilots, and the pulse of the band; the returned rate is the configured rate times samples_per_symbol.  (Deviations of the code from IEEE 802.15.4g are part of the reference.)",
  "every band, rate mode 0..3, spreading mode, samples_per_symbol >= 1, object history, and message of 1 to 2047 octets",
  "A full functional specification over all messages; tests compare a handful of stored frames.", [f"{Q}:bitsToIQ", f"{Q}:bytesToIQ", f"{Q}:_o_qpsk_modulator"])
p("MR-FSK frames are those of a closed-form reference transmitter",
  "A message is refused with ValueError exactly when it has 2048 octets or more, when it is not a whole number of octets with FEC and interleaving, or when it has an odd number of bits with uncoded 4FSK; every other message gives, bit by bit and sample by sample, the frame given by formulas in the index: preamble, SFD (4FSK: each 2FSK SFD bit followed by 1), header, NRNSC or RSC code with tail and padding, pair interleaver, whitening after the header by the x^9+x^5+1 sequence, 20 samples of a complex exponential per symbol at 20*symbolRate.",
  "every configuration, object history and message",
  "A full functional specification over all messages; tests compare a handful of stored frames.", [f"{FS}:bitsToIQ", f"{FS}:bytesToIQ", f"{FS}:_FSKModulator"])
p("Ofdm_modulator validates its arguments",
  "The constructor succeeds exactly when N_FFT is a power of two, the modulation is BPSK, QPSK or QAM16, paddings, initial pilot set and seed are integers, the spreading factor is 1, 2 or 4, and pilot positions and values are both absent or both acceptable (1-D or 2-D positions with sorted columns; \"pn9\" or one value per pilot); it then stores exactly these. Everything else raises ValueError, except that a string other than \"pn9\" can raise AttributeError. The arguments used by every supported MR-OFDM modulator are accepted.",
  "every combination of argument values",
  "All argument values.", [f"{D}:__init__"])
p("MR-OFDM header duration (exact)",
  "The header of every MR-OFDM frame takes exactly the predetermined number of OFDM symbols, times 3/2 for MCS 4 and MCS 6.",
  "every supported configuration, object history and message length",
  "All configurations, histories and lengths.", [f"{MO}:_PHR"])
p("MR-OFDM interleaver permutation (exact)",
  "Coded bit k of each block goes to position i(j(k)), i and j being the two permutations of the standard, for every MCS.",
  "every supported configuration, block and position",
  "All positions of all blocks.", [f"{MO}:_interleaver"])
p("MR-OFDM tail bits (exact)",
  "The six bits after the message are zero exactly as long as at least one padding bit is needed; for octet messages the exception is MCS 4, option 4 and 6 (mod 9) octets, where they are whitening bits.",
  "every supported configuration and message",
  "All lengths.", [f"{MO}:bitsToIQ"])
p("MR-OFDM constructor (exact)",
  "Success, UnsupportedError and IndexError (MCS 7 with a valid option) occur exactly for the listed arguments; everything else raises ValueError.",
  "every four Python values (integers, booleans, floats, strings, others)",
  "All argument values.", [f"{MO}:__init__"])
p("MR-FSK phase jumps (exact)",
  "The phase is continuous at the start of symbol n exactly when the frequency step times n is a multiple of the symbol rate; a 2FSK frame has no jump at all exactly when the modulation index is an integer.",
  "every configuration, message and symbol boundary",
  "All boundaries of all frames.", [f"{FS}:_FSKModulator"])
p("MR-FSK in double precision",
  "With double precision (any rounding of relative error at most 2^-53) the time axis has the right number of samples or exactly one too many, and a message either gives the samples of exact arithmetic or raises ValueError.",
  "every configuration, message and rounding of that accuracy",
  "All rates, lengths and roundings.", [f"{FS}:_FSKModulator"])
p("MR-O-QPSK interleaver loss (exact)",
  "PSDU interleaving never fails and preserves the size; two coded PSDUs of NB blocks have the same output exactly when they agree outside positions 126 .. 108 NB + 17.",
  "every number of blocks and pair of coded PSDUs",
  "All lengths.", [f"{Q}:_interleaver"])
p("MR-O-QPSK refused messages (exact)",
  "A message of 1..2047 octets is refused (ValueError) exactly when its number of 63-bit blocks is odd and the spreading takes groups of four bits (DSSS) or the rate mode is 0 or 1 (MDSSS).",
  "every configuration and message",
  "All lengths.", [f"{Q}:bytesToIQ"])
p("MR-O-QPSK MDSSS frames depend only on the message length",
  "With MDSSS two messages of the same number of octets have the same outcome, in particular the same samples: the multiplexer ignores the encoded bits.",
  "every MDSSS configuration and pair of messages of equal length",
  "All pairs of messages.", [f"{Q}:_MDSSS"])
p("Hadamard codewords (exact)",
  "For every size 2^x >= 4 the codewords of 0..3 are the first Walsh sequences and those of 4..7 are all zero.",
  "every size and word",
  "All sizes.", [f"{Q}:_hadamard_codeword"])
p("MR-O-QPSK information loss (exact)",
  "With DSSS two modulable messages of the same length give the same signal exactly when they agree in all bits except 63 .. 54 NB + 2; messages of different lengths never do.",
  "every DSSS configuration with samples_per_symbol >= 3 and pair of messages",
  "All pairs of messages.", [f"{Q}:bytesToIQ"])
p("MR-O-QPSK I and Q are aligned (exact)",
  "At every sample the imaginary part equals plus or minus the real part: both chips of a pair are sent at the same time.",
  "every chip sequence and samples_per_symbol",
  "All samples.", [f"{Q}:_o_qpsk_modulator"])
p("MR-O-QPSK raised cosine samples (exact)",
  "A raised cosine sample divides by zero exactly for 32 j = 11 sps or 32 j = 21 sps, which happens exactly when 32 divides samples_per_symbol; the singularity is removable; the pulse has a non-zero sample exactly from 3 (half sine) or 2 (raised cosine) samples per symbol.",
  "every samples_per_symbol and band",
  "All samples_per_symbol.", [f"{Q}:raised_cosine", f"{Q}:half_sine"])
p("MR-O-QPSK sampling frequency (exact)",
  "The returned sampling frequency matches the chip rate of the band (two chips per samples_per_symbol samples) exactly for rate mode 3 outside 2450 MHz.",
  "every configuration and chip sequence",
  "All configurations.", [f"{Q}:_o_qpsk_modulator"])
p("Bit order of to_int after to_bin (exact)",
  "to_int with the opposite flag inverts to_bin; with the same flag it returns the bit-reversed number.",
  "every width 1..8, value below 2^w and flag",
  "All values and widths.", [f"{B}:to_int", f"{B}:to_bin"])
p("MR-O-QPSK pilot sequences (exact)",
  "The pilot of every band is the SHR spreading of bit 0, except at 2450 MHz, where exactly chip 78 differs.",
  "every band",
  "Relates two independently entered tables, for every band.", [f"{Q}:PILOT_SEQUENCES"])
p("Intermediate stages stored on the modulator are those of the last message",
  "After a call that succeeds, the intermediate attributes of the modulator (header, coded, interleaved, whitened and spread bits, binary signal, chips, padding size, interleaver table) are exactly the corresponding stages of the reference transmitter for this message and configuration; the attributes of stages that the configuration switches off keep their previous values.",
  "every supported configuration, previous state of the object and accepted message",
  "Stale or mixed attributes depend on the history of the object and on the configuration; all messages.", [f"{FS}:bitsToIQ", f"{MO}:bitsToIQ", f"{Q}:bitsToIQ"])
p("MR-FSK coded frames of different messages differ in at least six bits",
  "With FEC enabled, the transmitted bits of two different messages of the same length (same configuration, any previous use of the modulators, RSC or NRNSC, interleaving and whitening on or off) have the same length and differ in at least six positions; hence a received frame with at most two bit errors determines the message among those of its length.",
  "every configuration with FEC, every pair of different messages of equal length, every history of the two objects",
  "The minimum distance ranges over all pairs of messages of every length; tests compare a few frames.", [f"{FS}:bitsToIQ", f"{FS}:_FEC", f"{FS}:_interleaver"])
p("MR-OFDM coded payloads of different messages differ in at least 10 (rate 1/2) or 5 (rate 3/4) bits",
  "For two different messages of the same length and the same supported configuration, the coded and interleaved payload bits that the modulator maps to tones differ in at least 10 positions with the rate 1/2 schemes and 5 with MCS 4 and 6.",
  "every supported configuration, every pair of different accepted messages of equal length, every history of the two objects",
  "The free distance of the punctured convolutional code is a statement on all pairs of messages of every length.", [f"{MO}:bitsToIQ", f"{MO}:_interleaver", f"{R}:Rate_one_half.sequence", f"{R}:Rate_three_quarter.sequence"])
p("MR-OFDM pilots visit the band evenly",
  "From any symbol of a frame on, during one cycle of the pilot sets (13, 7, 7, 4 symbols for options 1 to 4) every tone carries a pilot a fixed number of times, the same whatever the starting symbol: each of the used positions is visited, unused tones never.",
  "every supported configuration, message, starting symbol and tone",
  "Windows starting at any symbol of frames of any length.", [f"{MO}:bitsToIQ", f"{D}:_add_pilots_and_padding"])
p("Constant symbol energy of an MR-OFDM frame",
  "The energy of the useful part of each symbol of the returned signal depends on the option only: number of active tones (104, 52, 26, 14) for long training symbols, header symbols and the payload symbols of MCS 0 to 4 whatever the data, 25/16 of it for short training symbols; with 16-QAM (MCS 5, 6) it lies between pilots + 1/5 data tones and pilots + 9/5 data tones.",
  "every supported configuration, accepted message, history of the object, and symbol of the frame",
  "The energy must be the same for every message and symbol; a measurement covers one signal.", [f"{MO}:bitsToIQ", f"{D}:_ifft", f"{MO}:_STF", f"{MO}:_LTF"])
p("Constellation modulators for every argument type, axis and bit order",
  "get_modulator returns a modulator exactly for a known name, a boolean MSB_first and a non-negative integer axis (else ValueError). BPSK maps numbers, lists and arrays of any shape entry by entry, except that zero-dimensional arrays raise TypeError. QPSK maps pairs along axis 0 or 1 (or of a 1-D array), first value real part or, with MSB_first=False, imaginary part; odd sizes raise AssertionError (2-D) or ValueError (1-D), except that 1-D arrays of 1 and 3 values are accepted. QAM16 ignores MSB_first, returns the transposed result for axis=1 and a column for 1-D input, raises ValueError for sizes above 8 that are not multiples of 4 and silently fills incomplete groups below. Unsupported types, axes and numbers of dimensions raise ValueError.",
  "every modulator, option, argument type, shape and values",
  "All shapes, axes and values; broadcasting accidents occur only for particular sizes.", [f"{M}:get_modulator", f"{M}:BPSK.convert", f"{M}:QPSK.convert", f"{M}:QAM16.convert"])
p("subcarriersToIQ transforms each column separately and has the stated samples",
  "Ofdm_modulator.subcarriersToIQ accepts 1-D arrays of N_FFT values and 2-D arrays of N_FFT rows (ValueError otherwise, AttributeError for other objects). Each column is transformed on its own: for an even N_FFT and a prefix of at least one sample and at most N_FFT samples (for the rest see C27), sample k is the sum over the tones t from -N/2 to N/2-1 of x[t+N/2] exp(2*pi*i*t*(k-P)/N)/sqrt(N), P being the prefix length. bitsToIQ returns exactly the columns that subcarriersToIQ gives for its symbols, one after the other.",
  "every FFT size, prefix, matrix of subcarriers, message and pilot state",
  "Real-valued identities for all inputs and sizes.", [f"{D}:subcarriersToIQ", f"{D}:bitsToIQ", f"{D}:_ifft", f"{D}:_cyclic_prefix"])
p("Header check sequences are exact in floating point",
  "The header check sequences of MR-OFDM and MR-O-QPSK are computed by numpy in floating point (polymul, polydiv with an allclose test, mod, casts). For every header the result equals the one of exact integer arithmetic: no rounding error reaches a header bit, in double precision and in every arithmetic that is exact on integers up to 2^53.",
  "every input of at most 53 bits (the headers use 22 and 16), every rounding function exact on 53-bit integers",
  "2^22 headers times rounding behaviour; tests sample a few.", [f"{F}:HCS_calculation", f"{Q}:_PHR"])
p("Interleavers separate neighbouring coded bits",
  "MR-OFDM: in every configuration, for header and payload, two coded bits of a block that are at most five positions apart are never carried by the same constellation point, and neighbouring coded bits are at least 8, 4, 2, 1 points apart (options 1..4). MR-FSK: a burst of up to four consecutive transmitted code symbols, also across block boundaries, never hits two code symbols less than three apart.",
  "every supported configuration, every coded stream, every block and position",
  "Depends on all positions of unbounded streams and all configurations.", [f"{MO}:_interleaver", f"{FS}:_interleaver"])
p("Which bit messages MR-O-QPSK modulates",
  "Mr_o_qpsk_modulator.bitsToIQ accepts messages of any number n of bits, not only whole octets. With standard modes it returns a signal exactly when n//8 <= 2047 and: DSSS with 1-bit spreading: always; DSSS with 4-bit spreading and MDSSS rate modes 0, 1: the number of 63-bit blocks plus n is even; MDSSS rate modes 2, 3: n is a multiple of 4. Otherwise ValueError. The number of samples is chips/2*sps+sps-1 with the chip count given by band tables.",
  "every band, rate mode, spreading mode, samples per symbol, accepted bit message and object state",
  "All lengths and all 64 configurations.", [f"{Q}:bitsToIQ", f"{Q}:_FEC", f"{Q}:_TPC", f"{Q}:_interleaver"])
p("Signals of different messages are far apart",
  "Two MR-OFDM modulators with the same supported configuration modulate two different messages of the same length: the two sample lists have equal length and their squared Euclidean distance is at least 160, 80, 40, 20, 10, 4, 2 for MCS 0..6. So if a received signal is closer (in squared distance) than a quarter of that to the transmitted one, the nearest of all signals of messages of that length is the transmitted one.",
  "every supported configuration, object history, pair of different equally long messages and received signal",
  "All pairs of messages: exponentially many; free distance, interleaver, repetition, Gray mapping and transform interact.", [f"{MO}:bitsToIQ", f"{MO}:_payload", f"{D}:bitsToIQ", f"{M}:convert"])
p("Headers are far apart and the nearest signal identifies the message",
  "Two MR-OFDM modulators with the same option and interleaving setting (any MCS and scrambler) modulate messages of any lengths: if the MCS, the length in octets or the scrambler differ, the squared distance of the signals over the shorter one is at least 160, 160, 80, 40 for options 1..4. With equal configurations, any two different octet messages of any lengths give signals at squared distance at least the smaller of that and the C97 bound, so noise of less than a quarter of it cannot make another message's signal the nearest.",
  "every pair of supported configurations sharing option and interleaving, object histories, all pairs of messages, any received signal",
  "All pairs of messages of all lengths and pairs of configurations.", [f"{MO}:bitsToIQ", f"{MO}:_PHR", f"{MO}:bytesToIQ", f"{F}:PHR"])
p("MR-FSK signals of different messages are far apart",
  "Two MR-FSK modulators with the same configuration: the squared Euclidean distance of their signals (over the shorter one) is at least 3 for each symbol in which the transmitted bits select different frequencies, for every modulation index from 0.25 to 2.5. With FEC, two different messages of the same length are at least 18 (2FSK) or 9 (4FSK) apart, so noise below a quarter of that cannot make another message's signal the nearest. With or without FEC, any two different octet messages of any lengths are at least 3 apart over the shorter signal; no signal is the beginning of another.",
  "every configuration and modulation index, object history, pair of messages, received signal",
  "Continuum of modulation indices, all pairs of messages; the phase restarts at every symbol.", [f"{FS}:_FSKModulator", f"{FS}:bitsToIQ", f"{FS}:bytesToIQ", f"{FS}:_FEC"])
p("MR-OFDM frames can be received",
  "An explicit receiver that knows only the OFDM option and the interleaving setting (Fourier transform of the useful part of each symbol, hard decisions on the first copy of each data value, inverse interleaver, inverse code, header with check sequence, whitening) recovers the MCS, the scrambler setting and the octets of the message from the samples of every frame, for every supported configuration, and also from any signal that differs from the frame, in the useful part of each symbol, by noise of energy less than 1 (BPSK), 1/2 (QPSK) or 1/10 (16-QAM). A bit message is recovered up to its last complete octet.",
  "every supported configuration, object history, message, noise within the margin",
  "All messages and a continuum of noise; every stage of the transmitter (header fields, CRC, code, puncturing, interleaver, tones, pilots, spreading phases, FFT, prefix) must be invertible in the way the header announces.", [f"{MO}:bitsToIQ", f"{MO}:bytesToIQ", f"{MO}:_PHR", f"{MO}:_interleaver", f"{D}:_ifft"])
p("MR-FSK signals can be received",
  "An explicit receiver that knows only the modulation, the modulation index, the preamble length and the FEC/interleaving settings (nearest of the two or four tones in each block of 20 samples, symbol demapping, frame delimiter skipped, inverse interleaver and code, header, whitening) recovers the FCS-type flag, the whitening flag and the octets of the message from the samples of every frame that is produced, for modulation indices from 0.25 to 2.5, and also from any signal that differs from it in each symbol by noise of energy less than 3/4. A bit message is recovered up to its last complete octet.",
  "every configuration with such an index, object history, message, noise within the margin",
  "All messages, symbol positions and a continuum of noise and of modulation indices; every stage of the transmitter must be invertible in the way the header announces.", [f"{FS}:_FSKModulator", f"{FS}:bitsToIQ", f"{FS}:bytesToIQ", f"{FS}:_FEC"])
p("MR-O-QPSK frames can be received",
  "An explicit receiver that knows only the band and samples_per_symbol (correlation with the pulse, correlation with the spreading codes, pilots skipped, differential decoding, inverse interleaver and code, header with check sequence) recovers spreading mode, rate mode, octet count and every message bit contained in the frame: with DSSS all bits except 63 .. 54 NB + 2 (so the whole message up to 7 octets), with MDSSS none; by C81 and C79 no receiver can recover more. It also works on any signal whose noise energy on each spread bit (or group of four bits) is below the distance of the spreading code times the pulse energy, for instance below 3/8 of the pulse energy on each chip. Clean frames need 3 samples per symbol (half sine) or 2 (raised cosine).",
  "every standard configuration, object history, message of whole octets, noise within the margin",
  "All messages and a continuum of noise; every stage of the transmitter must be invertible in the way the header announces.", [f"{Q}:bitsToIQ", f"{Q}:bytesToIQ", f"{Q}:_insert_pilots", f"{Q}:_interleaver"])
p("Ofdm_modulator.bitsToIQ for every modulator and every array",
  "Whatever arguments Ofdm_modulator accepted (negative paddings, any pilot positions, any initial set and seed) and in whatever state it is, bitsToIQ(bits, pad) succeeds exactly when: exactly one axis of the array differs from 1; a symbol holds a positive number L of values; pad is set or the size is a multiple of L; DC lies outside the paddings; the constellation points made of L values fill the data tones (or it is a single point); and every pilot set that is reached has different tones, none of them DC, guard or out of band, with a start index between -count and count-1. Otherwise ValueError, except ZeroDivisionError (pad with L = 0), AssertionError (QPSK with L odd) and IndexError (modulators with pilots only); without pilots a refused call changes nothing. When there are data tones, the signal is that of the bit-level modulator for the bits 'entry > 0', with negative paddings read as 0, a negative index counted from the end and the seed modulo 512.",
  "every constructor call that succeeds, every object state, every array of any shape with any rational entries, pad on or off, every modulation factor and CP",
  "Unbounded arrays and parameter combinations; a handful of layouts exercises none of the interactions of paddings, pilots, spreading and rounding.", [f"{D}:bitsToIQ", f"{D}:_split_message", f"{D}:_constellation_map", f"{D}:_frequency_spread", f"{D}:_add_pilots_and_padding", f"{D}:__init__"])
p("Ofdm_modulator.bitsToIQ loses no message bit",
  "On every constructed Ofdm_modulator with at least one data tone, in any state, with a non-zero modulation factor and any CP, different binary messages that are accepted give different signals (with pad: messages of equal size); more generally equal signals mean that the same entries are positive. On a modulator without data tones messages of the same size are indistinguishable: same signal, same state.",
  "every constructor call that succeeds, every object state, every pair of arrays, pad on or off, every modulation factor and CP",
  "Pairs of unbounded messages, all layouts.", [f"{D}:bitsToIQ", f"{D}:_add_pilots_and_padding", f"{D}:_ifft", f"{D}:_cyclic_prefix"])
p("Peak amplitude of the signals",
  "Every sample of every signal returned by bitsToIQ / bytesToIQ is bounded, whatever the message: MR-FSK samples have magnitude exactly 1; MR-O-QPSK samples at most sqrt(2), attained when samples_per_symbol is even (raised cosine bands) or a multiple of 4 (half-sine bands 915 and 2450 MHz); the squared magnitude of an MR-OFDM sample is at most active*(pilots + c*data)/N with c = 1 up to MCS 4 and 9/5 for MCS 5 and 6 (a full-scale value for a DAC).",
  "every supported configuration, every object state, every argument that is accepted, every sample",
  "The largest sample over all messages cannot be found by trying messages.", [f"{MO}:bitsToIQ", f"{Q}:_o_qpsk_modulator", f"{FS}:_FSKModulator", f"{D}:_ifft"])
p("Which samples depend on which message bits",
  "MR-OFDM: for two messages of equal length, a payload OFDM symbol is the same sample by sample as soon as the messages agree in the bits carried by its interleaver block and the six bits before; hence changing one message bit changes at most the symbols of two consecutive interleaver blocks, and everything before the payload (training fields and header) depends only on configuration and octet count. MR-O-QPSK: everything before the PSDU depends only on configuration and octet count.",
  "every supported configuration, two objects with any history, every pair of accepted messages, every symbol",
  "Relational property of pairs of unbounded messages.", [f"{MO}:bitsToIQ", f"{MO}:_payload", f"{MO}:_interleaver", f"{R}:Rate_one_half", f"{Q}:bitsToIQ"])
p("MR-FSK transmission is causal",
  "Two accepted messages of the same length that agree in their first k bits give frames with the same first SHR + 16 + k bits (without FEC), SHR + 2(16+k) bits (with FEC), or SHR + 32*floor((16+k)/16) bits (FEC and interleaving), and the same samples for these bits. Without interleaving this is exact: the first message bit that differs is visible in the very next bit of the frame (with FEC: in the next two).",
  "every configuration, two objects with any history, every pair of accepted messages of equal length, every k",
  "Relational property of pairs of unbounded messages and of all prefixes.", [f"{FS}:bitsToIQ", f"{FS}:_FEC", f"{FS}:_interleaver", f"{FS}:_FSKModulator"])
p("MR-O-QPSK reference transmitter for bit messages of any length",
  "bitsToIQ with an accepted bit message of any number of bits (not only whole octets) is either refused with ValueError (2048 octets or more, or a size that cannot be spread, see C96) or returns exactly the samples and sampling frequency of the closed-form reference transmitter: an incomplete octet is coded together with the message, the zeros appended are those that the complete octets need.",
  "every configuration with rate mode 0..3 and a supported spreading mode, every object state, every accepted bit message",
  "Unbounded messages; sample-exact equality with an independent closed form.", [f"{Q}:bitsToIQ", f"{Q}:_FEC", f"{Q}:_interleaver", f"{Q}:_DSSS", f"{Q}:_MDSSS", f"{Q}:_insert_pilots", f"{Q}:_o_qpsk_modulator"])
p("MR-FSK samples in double precision",
  "With every operation of the modulator rounded to double precision (relative error at most 2^-53, np.pi instead of pi, i*dt for the time axis) and a complex exponential with absolute error eta, a call fails exactly when rounding the length of the time axis makes it fail (C44, C76); otherwise it returns as many samples as exact arithmetic, each within eta + 2e-9 of the exact sample, and a sampling frequency within a relative error 2^-51 of 20*symbolRate. With eta <= 1/8 the receiver of C101 recovers the octets from the samples really returned.",
  "every configuration the constructor accepts (any symbol rate, index in 1/4..5/2 as int or float, preamble up to 1000), every object state, every argument, every rounding function with relative error 2^-53, every sample",
  "Worst-case rounding error over all messages, rates, indices and sample positions.", [f"{FS}:_FSKModulator", f"{FS}:bitsToIQ", f"{FS}:bytesToIQ"])
p("MR-FSK frames can be synchronised without knowing preamble length and coding",
  "In every transmitted frame, at every position before the start of frame delimiter the next 16 (32) bits differ from every delimiter in at least 4 positions and from both delimiters of the frame's SFD group in at least 6. Hence a search for the delimiters of the group (two wrong bits allowed) finds the end of the preamble and tells coded from uncoded frames, with up to two bit errors in the delimiter and three in any stretch before it; and a receiver that knows neither preamble length nor FEC setting recovers both and the message from the samples.",
  "every configuration (preamble length, SFD group, FEC, modulation), every object state, every accepted message, every position, every error pattern within the bounds",
  "All positions, preamble lengths and error patterns.", [f"{FS}:_SHR", f"{FS}:bitsToIQ", f"{FS}:_FSKModulator"])
p("MR-O-QPSK samples in double precision: accurate and decodable, except at the singular pulse instants",
  "With every operation rounded to IEEE double precision and sine/cosine of error at most eta, bytesToIQ and bitsToIQ fail exactly when exact arithmetic does, with the same error; otherwise they return the same number of samples at the same sampling frequency, all finite, each within eta+1e-14 (half-sine bands) or sps*(13*eta+5e-13) (raised-cosine bands, sps not a multiple of 32 and at most 2^30) of the exact ones, and (up to 4096 samples per symbol) an ideal receiver decodes them. With 32, 64, 128, ... samples per symbol the raised-cosine bands fail: at 780 and 917 MHz every sample is inf or NaN except the first and last 11/32 symbol although the call succeeds; in the narrow bands one sample of every symbol has the wrong sign or is not finite.",
  "every standard configuration, every samples-per-symbol value, every argument, every object state, every rounding with relative error 2^-53 (first part), IEEE 754 binary64 (second part)",
  "All messages, configurations and numbers of samples per symbol; the failing configurations are isolated points of an infinite family.", [f"{Q}:_o_qpsk_modulator", f"{Q}:bitsToIQ", f"{Q}:bytesToIQ", f"{Q}:raised_cosine", f"{Q}:half_sine"])
p("MR-OFDM samples in machine arithmetic: accurate and decodable",
  "If complex products, real quotients, square roots and the exponentials of the frequency spreading have relative error at most eps <= 1/1000 and the inverse FFT has error at most eps times the Euclidean norm of its input, then bytesToIQ and bitsToIQ raise the same exceptions as with exact arithmetic and otherwise return a sampling frequency (computed in double precision) within 1 nHz of the exact one and the same number of samples, each within 220*eps of the exact one; with eps <= 1/10000 an ideal receiver applied to the computed samples returns exactly the transmitted octets, MCS and scrambler. Arithmetic with 53 significant bits and schoolbook complex products meets this with eps = 5*2^-53.",
  "every supported MCS/option/interleaving/scrambler, every argument, every object state, every machine arithmetic within the stated error",
  "All messages and all floating point implementations of the FFT within the error bound.", [f"{D}:_ifft", f"{D}:_frequency_spreading", f"{D}:bitsToIQ", f"{D}:subcarriersToIQ", f"{MO}:_STF", f"{MO}:_LTF", f"{MO}:_PHR", f"{MO}:_payload", f"{MO}:bitsToIQ", f"{MO}:bytesToIQ"])
p("Calls from several threads",
  "Calls of bitsToIQ/bytesToIQ on different modulator objects, of any kinds and interleaved in any way at the level of attribute accesses, each return (or raise) exactly what they do when run alone and finish after a number of own steps that does not depend on the others. Calls that share one object never change its parameters, so after any interleaving, finished or not, a later call alone gives the result of a fresh object. But two overlapping calls on one object are not isolated: for every pair of accepted messages there is an interleaving without exception in which both MR-FSK (MR-O-QPSK) calls return the samples of the second message, and in which the first MR-OFDM call returns its own training fields and header followed by the payload of the second message (for equal lengths: the other message's frame).",
  "every number of threads, every schedule, every argument, every object state; for MR-OFDM every supported configuration",
  "The number of interleavings is unbounded and the races depend on thread timing.", [f"{FS}:bitsToIQ", f"{FS}:bytesToIQ", f"{Q}:bitsToIQ", f"{Q}:bytesToIQ", f"{MO}:bitsToIQ", f"{MO}:bytesToIQ", f"{MO}:_PHR", f"{MO}:_payload", f"{MO}:_padding", f"{MO}:_interleaver"])
p("MR-O-QPSK constructed from values of any Python type",
  "The Mr_o_qpsk_modulator constructor looks only at the spreading mode (and at the band if that equals 1): otherwise any values are accepted. bitsToIQ returns samples only if the band is a Frequency_band member, the spreading mode equals 0 or 1 (1.0 and True count), the rate mode is an int (or bool) in 0..3 and samples_per_symbol is a positive int (or True); the samples are then those for the corresponding integers. For an accepted message a wrong band raises KeyError (TypeError if unhashable), a rate mode that is no int TypeError, and where one sample per symbol works a samples_per_symbol that is no int raises TypeError and one that is not positive ValueError. Where spreading mode 1 works, a spreading mode equal to neither 0 nor 1 raises KeyError (TypeError if unhashable).",
  "every band value, rate mode, spreading mode and samples_per_symbol of any type, every message argument",
  "All Python values.", [f"{Q}:__init__", f"{Q}:_PHR", f"{Q}:_o_qpsk_modulator", f"{Q}:bitsToIQ", f"{Q}:bytesToIQ"])
p("NaN and infinities in messages and parameters",
  "bitsToIQ's check accepts a one-dimensional non-empty message exactly if all entries are finite numbers of [0,1] or one of them is a NaN: a NaN anywhere switches the check off and every octet-valued entry goes through unchanged; without a NaN infinities raise ValueError. In an octet list the first NaN raises ValueError and the first infinity or number beyond 64 bits OverflowError; an octet array is refused on x86 if it has a special value, while on ARM a NaN counts as octet 0. On x86 bytesToIQ of the three modulators refuses any message with a special value and leaves the object unchanged. Mr_fsk_modulator refuses symbolRate=nan with ValueError, ±inf with OverflowError, and a NaN or infinite modulation index with ValueError. On ARM bytesToIQ with an array whose only special values are NaNs is, value, exception and object, bytesToIQ with 0 in their place; on both machines bytesToIQ with a finite message is that of the model without special values. Finite arguments behave as in C02, C03.",
  "every list and array of floating-point numbers including NaN and infinities, every machine conversion, every constructor argument",
  "All messages; machine-dependent conversions.", [f"{B}:check_binary_array", f"{B}:to_binary_array", f"{FS}:__init__", f"{MO}:bytesToIQ", f"{FS}:bytesToIQ", f"{Q}:bytesToIQ"])
p("Distances of MR-O-QPSK signals",
  "For two modulated messages on the same band and samples per symbol the squared Euclidean distance of the signals over the shorter length is 4E per differing chip (E the energy of the sampled pulse), plus 2(E - g^2) if one frame is longer. If the spreading mode, the rate mode or the octet count differ, it is at least 20E times the header's chips per bit; with DSSS and equal parameters, two different messages of at most 7 octets and equal length are 4E*c10 apart and messages of any equal length that differ in a bit the frame contains 4E*c2, where cW is the number of differing chips guaranteed by W differing coded bits for the band and rate mode. So different messages of 1 to 7 octets are at least 40E apart and a received signal with less noise energy than a quarter of the bound is closest to the one that was sent.",
  "every pair of standard configurations with the same band and sps, every pair of messages and histories, every received signal",
  "All pairs of messages.", [f"{Q}:bitsToIQ", f"{Q}:bytesToIQ"])
p("Arrays are isolated",
  "Take any program that constructs MR-FSK, MR-O-QPSK and MR-OFDM modulators, makes arrays, hands them to bitsToIQ and bytesToIQ, keeps the returned signals, and overwrites arrays it holds (earlier arguments, returned signals) at any time. Although methods store arrays in attributes without copying, let two attributes name one array, fill arrays in place and read tables of the library, the outcomes of all calls, the contents of all arrays of the program and of all attributes are those of a world in which every array is a private value: a call changes no array that existed before it (not its argument, no returned signal, no table, no array of another modulator), a returned signal is a new array that no attribute names, and writing into an array has no effect on a later call with another argument.",
  "every program (any number of modulators, arrays, calls and overwrites, in any order), every rounding of the MR-FSK frequencies",
  "Aliasing shows only in particular sequences of calls and writes.", [f"{B}:check_binary_array", f"{B}:to_binary_array", f"{FS}:bitsToIQ", f"{FS}:bytesToIQ", f"{Q}:bitsToIQ", f"{Q}:bytesToIQ", f"{MO}:bitsToIQ", f"{MO}:bytesToIQ", f"{D}:bitsToIQ"])
p("Pilot arrays handed to Ofdm_modulator",
  "Ofdm_modulator keeps references to the arrays it is given as pilots_indices and pilots_values, and copies lists. For any program that constructs modulators, makes arrays and lists, hands them over and overwrites entries of them at any time: if no array is written to after it was handed to a constructor (lists may be), all outcomes, returned signals, exceptions and getters are those of modulators that own their pilots. If an array is written to later, every later call sees the new tones and values, without the checks of the constructor. A constructor acts on exactly what the array or list contains at that moment. No constructor or call changes an array of the program, and a returned signal is a new array.",
  "every program (any number of modulators, arrays, lists, constructions, calls and overwrites, in any order), every argument of the constructor and of bitsToIQ",
  "Aliasing shows only in particular sequences of calls and writes.", [f"{D}:Ofdm_modulator", f"{D}:bitsToIQ", f"{D}:get_pilot_set_index", f"{D}:get_pn9_value"])
p("MR-O-QPSK frames can be found",
  "In the chips of every MR-O-QPSK frame, at every position before the start of frame delimiter (and in the silence before the frame) the next 16 N chips differ from the delimiter in at least 6 N places (N chips per SHR bit, in every band), and at the end of the preamble the delimiter is there exactly. So a receiver that knows band and samples per symbol and starts at an unknown time, any number of symbol intervals before the frame or up to the end of the preamble, finds the delimiter as long as fewer than 3 N of its chips (and at most 3 N of any equally long stretch before) are decided wrongly, and receives spreading mode, rate mode, length and every message bit the frame contains.",
  "every band, rate and spreading mode, samples per symbol (at least 2, or 3 with the raised cosine), message, number of intervals of silence or of missed preamble, and pattern of wrong chips within the bounds",
  "Every start time, error pattern and message matters; a false detection at a single position loses the frame.", [f"{Q}:Mr_o_qpsk_modulator", f"{Q}:_SHR", f"{Q}:bytesToIQ", f"{Q}:_DSSS"])
p("MR-OFDM frames survive multipath",
  "A receiver that knows only the OFDM option and the interleaving estimates the channel from the first long training symbol, divides every tone by the estimate and decides. For every supported modulator and message it recovers MCS, scrambler seed and every octet after any channel whose echoes arrive within the cyclic prefix (at most a quarter symbol late) and that erases no active tone, provided the noise energy in the training symbol and in each symbol stays at most eps^2, where 4 eps (9 eps for 16-QAM) is at most the gain of every active tone. Without noise every such channel works, in particular any gain and phase and a receiver that starts up to a quarter symbol early.",
  "every supported MCS, option, interleaving, scrambler and message, every impulse response of at most a quarter symbol + 1 taps that erases no active tone, every received signal within the noise bound",
  "Every channel, noise pattern and message matters; a prefix that is not the end of its symbol, or one wrong training tone, loses messages only over some channels.", [f"{MO}:Mr_ofdm_modulator", f"{MO}:_LTF", f"{MO}:bytesToIQ", f"{MO}:bitsToIQ", f"{D}:_cyclic_prefix"])
p("MR-FSK frames survive unknown gain, phase, carrier and timing",
  "A discriminator receiver, which decides each symbol by the rotation from sample to sample in the middle of the symbol and searches the start of frame delimiter, and which knows modulation, modulation index, SFD group, FEC scheme and interleaving but neither preamble length nor whether the frame is coded, recovers the coded flag, FCS type, whitening flag and every octet of every frame. It works if each symbol from some point of the preamble on is heard with any gain and phase, with a carrier offset of less than half the tone spacing, at most five samples (a quarter symbol) early or late, and with noise below a stated bound, all of which may change from symbol to symbol; with unknown gain and phase alone each sample may be disturbed by h^2/250 of the amplitude.",
  "every configuration (index at most 2.5), message, start within the preamble, gain, phase, carrier offset, timing error and noise within the bounds, separately for each symbol",
  "Every message, start and channel matters: one wrong symbol loses the message, and no test can run through the channels.", [f"{FS}:Mr_fsk_modulator", f"{FS}:bytesToIQ", f"{FS}:bitsToIQ", f"{FS}:_FSKModulator", f"{FS}:_SHR"])
p("MR-O-QPSK frames survive unknown start, strength and phase",
  "A correlation receiver that knows band and samples per symbol, but neither when the frame starts nor strength and phase of the signal, recovers spreading mode, rate mode, octet count and every message bit that a frame contains. It correlates with the start of frame delimiter, compares with the power received, and takes the complex factor from the correlation. It works for every factor but 0, whether it starts in the silence before the frame or during the preamble, if the noise in every symbol interval stays below 1/32 of the energy of the signal there.",
  "every standard configuration with a pulse that is not zero, every accepted message, every complex factor other than 0, every start before the end of the preamble, every noise within the bound",
  "The claim ranges over all messages, complex factors, starts and noise sequences; it needs that no position before the delimiter resembles it in any phase.", [f"{Q}:Mr_o_qpsk_modulator", f"{Q}:bytesToIQ", f"{Q}:bitsToIQ", f"{Q}:_SHR", f"{Q}:_o_qpsk_modulator"])
p("What an MR-O-QPSK signal says about a message of any number of bits",
  "With DSSS, two accepted bit messages give the same samples exactly when they have the same number of bits n and agree in all bits except those from 63 up to the start of the last blocks, bit 54*NB + 3 + n mod 8 (one less if n mod 8 is 4 or more), where NB is the number of 63-bit blocks needed for the whole octets and six tail bits. Hence messages of up to 63 bits are always told apart, and every longer one shares its samples with another. With MDSSS the samples only tell the number of whole octets.",
  "every standard configuration with a pulse that is not zero, every pair of accepted bit messages of any lengths, whatever the objects were used for before",
  "The claim is an equivalence over all pairs of messages; where the lost bits begin depends on the length modulo 8 in a way sample messages do not show.", [f"{Q}:bitsToIQ", f"{Q}:_interleaver", f"{Q}:_FEC", f"{Q}:_PHR"])
p("MR-OFDM frames survive unknown start, strength and phase",
  "A receiver that knows only option and interleaving, and looks for the first place where what it receives correlates with the beginning of the long training field (squared correlation above half of its maximum), then estimates the channel from that field and decodes, recovers MCS, scrambler and the complete octets of the message from every frame that bitsToIQ or bytesToIQ returns: when the frame arrives after any number of silent samples, or the receiver starts anywhere within the short training field, multiplied by any complex number c other than 0, with noise whose energy in any N consecutive samples of the frame (N the transform size) is at most eps^2, eps at most |c|/4 (|c|/9 for 16-QAM); what follows the frame does not matter.",
  "every supported configuration, every accepted message, every silence, starting point, complex factor and noise within the bound, every continuation of the signal after the frame, whatever the object was used for before",
  "The claim ranges over a continuum of factors and noise vectors and over all starting points; that the short training field with any amount of silence before it never resembles the long one is a property of the tables of all four options at every offset.", [f"{MO}:_STF", f"{MO}:_LTF", f"{MO}:bitsToIQ", f"{MO}:bytesToIQ"])
p("MR-OFDM frames survive a difference between the oscillators",
  "A receiver that knows only option and interleaving, whose oscillator differs from the transmitter's so that what it receives turns by an unknown angle w per sample, and which measures w as the angle between the two long training symbols, removes it, estimates the channel and decodes, recovers MCS, scrambler and the complete octets of the message from every frame that bitsToIQ or bytesToIQ returns: without noise for every |w| N < pi (N the transform size) and every channel whose echoes arrive within a quarter of a symbol and erase no tone in use; with noise whenever the gain of every tone in use covers the noise and the remaining turn over the length of the frame four times (16-QAM: nine times); for one path of complex gain c it is enough that |w| N <= 3.1 and that the noise energy in any N samples is at most eps^2 with 50 L eps <= N |c| for a frame of L samples.",
  "every supported configuration, every accepted message, every turn per sample, channel and noise within the bounds, every continuation of the signal after the frame, whatever the object was used for before",
  "The claim ranges over a continuum of angles, channels and noise vectors and over frames of every length.", [f"{MO}:_LTF", f"{MO}:bitsToIQ", f"{MO}:bytesToIQ"])
p("MR-O-QPSK frames survive a difference between the oscillators",
  "A receiver that knows only the frequency band and the number of samples per symbol, that starts to listen anywhere in the first half of the preamble, to which the signal arrives with an unknown non-zero complex factor c and turned by an unknown angle w per sample, and which measures w as the angle between two neighbouring quarters of the preamble, removes it, searches the start of frame delimiter, takes the factor from the correlation and decodes, recovers spreading mode, rate mode, length and message of every frame that bitsToIQ (whole octets) or bytesToIQ returns: without noise for every |w| T < pi (T the samples of a quarter of the preamble); with noise whenever |w| T + 3 rho < pi and in every symbol interval the energy of the noise is at most rho^2 |c|^2 times that of the pulse, with 20 rho L < T for a frame of L samples.",
  "every band, rate and spreading mode the constructor accepts with enough samples per symbol, every accepted message, every turn per sample, factor, starting point and noise within the bounds, whatever the object was used for before",
  "The claim ranges over a continuum of angles, factors and noise vectors and over frames of every length.", [f"{Q}:_SHR", f"{Q}:bitsToIQ", f"{Q}:bytesToIQ"])
p("MR-OFDM frames survive an unknown start together with a difference between the oscillators",
  "A receiver that knows only option and interleaver, that starts to listen d samples after the frame began, anywhere in the first two fifths of the short training field (d at most 2N, N samples per symbol), to which the signal arrives with an unknown non-zero complex factor c and turned by an unknown angle w per sample, and which measures w as the angle between two neighbouring short training symbols (5N/4 samples each), removes it, searches the long training field, takes the factor from it and decodes, recovers MCS, scrambler and message of every frame that bitsToIQ (complete octets) or bytesToIQ returns: without noise for every |w| 5N/4 < pi; with noise whenever |w| 5N/4 <= 3.1 and no N consecutive samples contain more noise energy than e^2, with 70 L e <= N |c| for a frame of L samples.",
  "every MCS, option, interleaver and scrambler the constructor accepts, every accepted message, every turn per sample, factor, starting point and noise within the bounds, whatever the object was used for before",
  "The claim ranges over a continuum of angles, factors and noise vectors and over frames of every length.", [f"{MO}:_STF", f"{MO}:_LTF", f"{MO}:bitsToIQ", f"{MO}:bytesToIQ"])
p("Bit helpers for arguments of any type and sign",
  "to_bin(k, width) of a non-negative integer has max(width, 1) digits that denote k, or exactly as many as k needs if these are more; of a negative integer it is the two's complement, again with width digits or as many as needed (releases of numpy that are strict raise ValueError instead of returning more digits); MSB_first=False reverses; anything but an integer or bool raises TypeError; -2^(width-1) <= k < 2^width never fails. to_int of a one-dimensional integer array looks only at the first eight entries (the last eight with MSB_first=False), the first being the least significant, and counts every entry different from 0 as 1; empty arrays raise IndexError, floats TypeError; integers from -128 to 255 come back modulo 256 from to_int with the opposite flag. from_bitstring ignores spaces, returns the digits in order, raises ValueError exactly if another character is no digit, and reads a concatenation piecewise; the delimiters and pilot sequences of the modulators are the literals of the source read this way.",
  "every integer, every width, every flag, every integer array, every string",
  "The claim ranges over all integers, widths, arrays and strings.", [f"{B}:to_bin", f"{B}:to_int", f"{B}:from_bitstring"])
p("Rate encoders for every seed and every array of numbers",
  "Rate_one_half and Rate_three_quarter count the seed of the constructor modulo 64, negative ones included; an entry of the array counts as 1 exactly if it is greater than 0. Whatever integer reset has put into the register, Rate_one_half.sequence returns A, B and their alternation, where output n is the sum modulo 2 of the input and of the memory cells the standard names, and cell j holds bit j of the register or'ed, from the sixth on, with input j - 6 (so reset(255) is not reset(63), and after reset with a negative number both outputs eventually equal the input for good); the register left behind is the memory moved on by the number of inputs. Rate_three_quarter.sequence raises ValueError if the length is no multiple of 3 and UnboundLocalError on an empty array, leaving the encoder unchanged; otherwise its first two values are A and B of the last three inputs only, its third is A0 B0 A1 B2 of each three inputs in turn, and the register is the one the rate 1/2 encoder would leave.",
  "every integer seed, every integer given to reset, every one-dimensional array of numbers",
  "The claim ranges over all integers and over arrays of any length.", [f"{R}:Rate_one_half", f"{R}:Rate_three_quarter"])
p("What the modulators print, and that printing changes nothing else",
  "The verbose flag never changes the value or exception of a call nor the object it leaves, and a call only adds lines to the output. With the flag off, Mr_ofdm_modulator, Ofdm_modulator and Mr_o_qpsk_modulator with DSSS print nothing, whatever the outcome; with MDSSS three lines (splitting, Hadamard encoder, SPC encoder) are printed even then. With the flag on the lines are determined by the configuration and the message size: one line from a Mr_ofdm_modulator constructor that succeeds, naming the option and the MCS the object will use; from Mr_ofdm_modulator.bitsToIQ nothing if the argument is refused, seven lines if the number of octets is not in 1..2047, otherwise thirteen, whose sample counts for STF, LTF and header are those of the frame returned, while the announced number of message symbols must be multiplied by the frequency spreading; from a successful Mr_o_qpsk_modulator.bitsToIQ the shapes of the MDSSS stages and a chip rate that is in fact the data rate; from one that is refused nothing, except with MDSSS and at most 2047 octets, where the spreading size and the padding (as many zeros as there are bits left over) are announced, and the splitting too (even with the flag off) if three or seven bits are left over; from a successful Ofdm_modulator.bitsToIQ the shapes of every stage, the drawing of guard, DC and pilot channels, and for each symbol its pilot set, the set index counting up from the initial one (possibly negative) and starting again from 0, with the drawing repeated after the last set. bytesToIQ prints what bitsToIQ prints for the bits of the octets.",
  "every argument, every state of the object, every supported configuration, flag on or off",
  "The claim ranges over all messages and all object states, and over every line printed.", [f"{MO}:Mr_ofdm_modulator._print_verbose", f"{Q}:Mr_o_qpsk_modulator._TPC", f"{Q}:Mr_o_qpsk_modulator._print_verbose", f"{D}:Ofdm_modulator._print_verbose", f"{D}:Ofdm_modulator._add_pilots_and_padding"])
p("Recordings of several frames can be taken apart",
  "Frames of any number of octet messages sent one after the other without gaps form a recording that an explicit receiver cuts into exactly these frames: it reads the frame at the beginning, computes the number of its samples from its header and continues behind it. The frames may come from different modulators: MR-OFDM frames need common option and interleaving (each has its own MCS and scrambler, which are recovered with the octets), MR-FSK frames common modulation, index, preamble length and coding (each with its own FCS type and whitening), MR-O-QPSK frames common band and samples per symbol (each with its own spreading and rate mode; the receiver gets the message bits the frame contains). It also holds with noise below the margins of C100, C101 and C102 in every frame. So two sequences of calls with the same samples are the same sequence of messages and settings (MR-O-QPSK: DSSS, at most seven octets each).",
  "every finite sequence of successful bytesToIQ calls, any messages, settings and object states, any noise within the margins",
  "Sequences of any length of messages of any size; no frame may look like the beginning of another one.", [f"{MO}:Mr_ofdm_modulator.bytesToIQ", f"{FS}:Mr_fsk_modulator.bytesToIQ", f"{Q}:Mr_o_qpsk_modulator.bytesToIQ"])
p("Which frequencies an MR-OFDM frame occupies",
  "In a frame of a supported configuration, a discrete Fourier transform of any N consecutive samples (N the transform length of the option: 128, 64, 32, 16) that lie inside one header or payload symbol (the window may start anywhere in the cyclic prefix) is exactly zero on the middle tone and on every tone beyond 52, 26, 13, 7 (guard band), and on every other tone has a power between 1/5 and 9/5 of the mean, exactly the mean in the header and for MCS 0 to 4. In every window inside the long training field exactly the tones in use carry power, all the same amount. In every window inside one of the first three short training symbols exactly the short training tones carry power (every eighth, fourth, fourth, second tone), all the same amount, 25/16 of the nominal one. In all these windows the samples have mean zero.",
  "every supported configuration, message, object state, symbol, window position and tone",
  "The spectrum of every window of every frame; a test sees the spectrum of a few messages.", [f"{D}:Ofdm_modulator.bitsToIQ", f"{D}:Ofdm_modulator.subcarriersToIQ", f"{MO}:Mr_ofdm_modulator.bitsToIQ", f"{MO}:Mr_ofdm_modulator._STF", f"{MO}:Mr_ofdm_modulator._LTF"])
p("An MR-OFDM signal determines the whole configuration",
  "The samples and the sampling frequency that bytesToIQ (or bitsToIQ) returns determine the complete configuration of the modulator: MCS, option, interleaving and scrambler, and the octets of the message. Two modulators that return the same signal and frequency have the same configuration and were given the same octets, and a receiver that is told nothing but samples and sampling frequency recovers all of it, even from a signal that is off by noise of energy less than 1 (BPSK), 1/2 (QPSK), 1/10 (16-QAM) in the useful part of each symbol. (The header does not carry the interleaving setting; it shows in the parity of a dozen header bits, because the check sequence of the header is complemented.)",
  "every pair of supported configurations, messages, object states and noise below the margin",
  "Uniqueness is about all pairs of configurations and messages, and the receiver must work for all of them.", [f"{MO}:Mr_ofdm_modulator.bitsToIQ", f"{MO}:Mr_ofdm_modulator.bytesToIQ", f"{MO}:Mr_ofdm_modulator._PHR", f"{MO}:Mr_ofdm_modulator._interleaver"])
p("An MR-FSK signal determines the configuration",
  "If two Mr_fsk_modulator objects, constructed with any accepted arguments, return the same samples and sampling frequency from bytesToIQ or bitsToIQ, then the messages are the same octets or bits (one may be given as octets and the other as bits, least significant first) and the modulators have the same symbol rate, modulation index, SFD group, modulation, FEC flag, FCS type, whitening flag and preamble length, and, with FEC on, the same FEC scheme and interleaving flag. With FEC off, modulators that differ only in FEC scheme and interleaving return the same signal for every message.",
  "every pair of constructible configurations, object states and non-empty octet or bit messages",
  "Uniqueness is about all pairs of configurations and messages.", [f"{FS}:Mr_fsk_modulator.__init__", f"{FS}:Mr_fsk_modulator.bytesToIQ", f"{FS}:Mr_fsk_modulator._FSKModulator", f"{FS}:Mr_fsk_modulator._interleaver"])
p("What an MR-O-QPSK signal says about the configuration",
  "Two audible MR-O-QPSK signals (at least 3 samples per symbol at 915 and 2450 MHz, at least 2 elsewhere) of any two bit messages from any two Mr_o_qpsk_modulator objects have the same samples exactly when the bands are the same or both in {470, 868, 950} MHz or both in {780, 917} MHz, samples per symbol, spreading mode and rate mode agree, and the messages agree in what a frame contains (DSSS: number of bits and contained bits, C123; MDSSS: number of whole octets). Objects that differ only in the band, within one of these groups, return the same result or exception for every argument. So equal signals of octet messages imply equal configuration up to the band group, equal sampling frequency and octet count, and equal messages with DSSS up to 7 octets.",
  "every pair of configurations with rate mode 0..3 and spreading mode 0 or supported 1, every object state and every pair of accepted messages",
  "Uniqueness is about all pairs of configurations, samples per symbol and messages.", [f"{Q}:Mr_o_qpsk_modulator.__init__", f"{Q}:Mr_o_qpsk_modulator.bitsToIQ", f"{Q}:Mr_o_qpsk_modulator.bytesToIQ", f"{Q}:Mr_o_qpsk_modulator._o_qpsk_modulator"])
p("A signal says which kind of modulator sent it",
  "The first sample of every signal returned by bitsToIQ or bytesToIQ has squared magnitude 0 for Mr_o_qpsk_modulator, 1 for Mr_fsk_modulator and 975/64, 325/768, 975/128, 175/192 for Mr_ofdm_modulator with option 1 to 4, whatever the configuration, the message and the earlier use of the object. So two modulators that return the same first sample are of the same kind (and option). If two modulators of any kinds return the same samples and sampling frequency for octet messages (MR-O-QPSK audible), kind, configuration and message agree, up to the scheme and interleaving of an MR-FSK modulator without FEC, the band within its group of an MR-O-QPSK modulator and what MR-O-QPSK frames do not contain. For MR-OFDM the samples alone determine configuration and message.",
  "every pair of modulators of the three kinds with supported configurations, every object state and every pair of messages",
  "The claim compares all pairs of configurations of three classes and all messages.", [f"{MO}:Mr_ofdm_modulator.bytesToIQ", f"{MO}:Mr_ofdm_modulator._STF", f"{FS}:Mr_fsk_modulator.bytesToIQ", f"{Q}:Mr_o_qpsk_modulator.bytesToIQ"])
p("Frequency spreading lets MR-OFDM survive lost tones",
  "Take a frame that bytesToIQ returned for an octet message and disturb it, in the useful part of every symbol, by interference of arbitrary strength confined to a set of tones known to the receiver and by noise of energy below 1 (BPSK), 1/2 (QPSK) or 1/10 (16-QAM). If in every symbol fewer tones are lost than each value has copies there (4 with MCS 0, 2 with MCS 1 and 2, 1 above; the header is sent with MCS 0, 0, 1, 2 under option 1 to 4), the receiver that decides every value on its first copy outside the lost tones recovers MCS, scrambler and message. In particular a continuous wave of any amplitude on any one tone during the whole transmission does no harm to MCS 0, 1, 2, nor do continuous waves on any three tones to MCS 0. With no tone lost this is the receiver of C100.",
  "all supported configurations and every object state, every octet message of legal length, every set of lost tones per symbol of legal size, every interference on them and every noise below the bound",
  "The claim ranges over all messages, all choices of lost tones and all complex-valued interference.", [f"{MO}:Mr_ofdm_modulator.bytesToIQ", f"{D}:Ofdm_modulator._frequency_spread", f"{MO}:Mr_ofdm_modulator._payload"])
p("Signals of different modulators stay apart, also in machine arithmetic",
  "If the first samples of signals returned by two modulators of any kinds differ by at most 1/25, the modulators are of the same kind (and, for MR-OFDM, option). If two MR-OFDM frames of octet messages agree within 1/36 in every sample that both have, configuration and message are the same. The same holds for the floating-point computations: with accurate operations (double precision qualifies) every sample is within 1/50 of the exact one, the first sample has magnitude 0, 1 or the square root of 975/64, 325/768, 975/128, 175/192 up to 1/50, so equal first samples mean equal kinds; and MR-OFDM signals computed by two machines with relative errors up to 1/50000 that agree within 1/60 in every sample that both have come from the same configuration and message.",
  "every pair of modulators of the three kinds with supported configurations (MR-FSK preambles up to 1000, MR-O-QPSK outside the configurations with 0/0 in double precision and up to 4096 samples per symbol), every object state, all messages, all machines of the stated accuracy",
  "The claim compares all pairs of configurations and messages, under all roundings.", [f"{MO}:Mr_ofdm_modulator.bytesToIQ", f"{FS}:Mr_fsk_modulator.bytesToIQ", f"{Q}:Mr_o_qpsk_modulator.bytesToIQ"])
p("The code and the interleaver of MR-OFDM bridge lost tones",
  "In the situation of C137 (frame from bytesToIQ, arbitrary interference confined to tones known to the receiver, small noise), a receiver that uses the copies of frequency spreading and, when all copies of a value are lost, the second coded bit of the same information bit, recovers MCS, scrambler and message as long as in every symbol the number of lost tones is at most: one less than the copies of a value, or, for schemes of rate 1/2 when the interleaver works within a symbol (phyOFDMInterleaving = 0, or no spreading), one less than twice the copies. In particular a continuous wave of any amplitude on any one tone does no harm to any scheme of rate 1/2 (MCS 0, 1, 2, 3, 5); without interleaving over the copies, up to 7 waves with MCS 0 and 3 with MCS 1 and 2.",
  "all supported configurations and every object state, every octet message of legal length, every choice of lost tones per symbol within the stated numbers, every interference on them and every noise below the bound",
  "The claim ranges over all messages, all choices of lost tones and all complex-valued interference; it depends on the interleaver never carrying the two coded bits of an information bit on the same tone.", [f"{MO}:Mr_ofdm_modulator.bytesToIQ", f"{MO}:Mr_ofdm_modulator._interleaver", f"{MO}:Mr_ofdm_modulator._encoder", f"{D}:Ofdm_modulator._frequency_spread"])
p("Coded MR-FSK frames survive lost symbols",
  "From a frame with error correction (either code) that bytesToIQ returns, a receiver that is told which symbols are lost - their samples may be anything - recovers header flags and message from the other symbols, which may carry noise of energy below 3/4, as long as for every information bit one bit of its coded pair or else the whole next coded pair is left. In particular: without interleaving no two lost symbols may be exactly one pair apart (4FSK: no two neighbours; 2FSK: no two at distance 2), so up to half of all symbols may be missing; with interleaving no two 4, 11 or 31 pairs apart, so bursts of 8 symbols of 2FSK or 4 symbols of 4FSK may be missing anywhere, every 36 pairs.",
  "all configurations with error correction and modulation index between 1/4 and 5/2, every object state, every octet message accepted, every set of lost symbols as described, every content of the lost samples and every noise below the bound",
  "The claim ranges over all messages, all loss patterns and all complex-valued samples; it depends on both generators of both codes and on the distance at which the interleaver sends neighbouring pairs.", [f"{FS}:Mr_fsk_modulator.bytesToIQ", f"{FS}:Mr_fsk_modulator._FEC", f"{FS}:Mr_fsk_modulator._interleaver", f"{FS}:Mr_fsk_modulator._FSKModulator"])
p("Spreading lets MR-O-QPSK survive destroyed chips",
  "A receiver that decides every chip separately and then looks for the nearest spreading code recovers spreading mode, rate mode, octet count and all message bits that the frame contains (see C102) from any signal in which, in every spread header bit, fewer than half of the chips and, in every spread group of PSDU bits (DSSS), fewer chips than half the distance of the code (the number of chips per bit, or 4, 6, 12 for the four-bit codes of 8, 16, 32 chips) are damaged - a chip is damaged if the disturbance on it has at least the energy of the chip; how strong it is does not matter, and the receiver is not told where. In particular arbitrary interference during B successive chip intervals anywhere in the frame does no harm if 4B is less than the chips per header bit and that distance: 3 intervals at 2450 MHz with rate mode 0, 1 interval in the bands with 8 chips per bit.",
  "all standard configurations with enough samples per symbol, every object state, every octet message, every signal at least as long as the frame with damage as described",
  "The claim ranges over all messages, all positions and all complex values of the interference; it rests on the distances of all spreading tables and on every stage of the frame.", [f"{Q}:Mr_o_qpsk_modulator.bytesToIQ", f"{Q}:Mr_o_qpsk_modulator._DSSS", f"{Q}:Mr_o_qpsk_modulator._PHR", f"{Q}:Mr_o_qpsk_modulator._o_qpsk_modulator"])
p("MR-O-QPSK frames survive fading",
  "The receiver of C141 (which is told neither gains nor phases) also recovers everything that a frame contains when every sample is received with its own unknown positive gain, however small or large, and its own phase error below 45 degrees, and when in addition, in every spread header bit and every spread group of PSDU bits, fewer chips than half the distance of the code are destroyed completely.",
  "all standard configurations with enough samples per symbol, every object state, every message of whole octets, every sequence of gains and phase errors, every set and content of destroyed chips within the limits",
  "Gains, phases and destroyed samples are arbitrary real and complex sequences; the claim needs the signs of the real and imaginary parts of all samples of all frames.", [f"{Q}:Mr_o_qpsk_modulator.bytesToIQ", f"{Q}:Mr_o_qpsk_modulator._o_qpsk_modulator", f"{Q}:Mr_o_qpsk_modulator._DSSS"])
p("MR-FSK frames survive fading and phase noise",
  "The receiver of C121 (which multiplies neighbouring samples and is told neither gain, phase, frequency offset nor exact start) also recovers everything that a frame contains when every sample is received with its own unknown positive gain, however small or large, and with phases that wander arbitrarily as long as they change from one sample to the next by less than half the distance of neighbouring tones; recording may start anywhere in the preamble within five samples of a symbol boundary.",
  "all configurations with a valid SFD and modulation index at most 2.5, every object state, every message, every sequence of gains and phases within the limit, every start in the preamble",
  "Gains and phases are arbitrary real sequences as long as the frame; the claim needs the products of neighbouring samples of all frames of all messages.", [f"{FS}:Mr_fsk_modulator.bytesToIQ", f"{FS}:Mr_fsk_modulator._FSKModulator"])
p("What a NaN in a bit message makes the modulators send",
  "A one-dimensional message with a NaN passes the bit check; integers from 0 to 255 in it are handed on unchanged, the NaN as the octet the machine makes of it. If all values handed on are 0 or 1, each modulator answers exactly as to those bits. Otherwise: MR-OFDM sends the frame of the bit message in which a value of 2 or more stands for the complement of the whitening bit at its place. MR-FSK without FEC or with the recursive encoder refuses every message with a value other than 0 and 1 (and, with 2FSK, 10 and 11), by KeyError if the length is a whole number of octets that fits the header; 2FSK without FEC sends 10 at a third of the frequency of a 1 and 11 at that of a 1; with the non-recursive encoder every message is sent (if its length fits the header and, with interleaving, is a whole number of octets), a value counting modulo 2 except that the two coded bits at the place of a value of 2 or more are 0.",
  "every list and array of floating-point numbers with a NaN, every conversion of NaN to an octet, all supported MR-OFDM configurations and object states, all MR-FSK configurations (exact arithmetic for the samples), and for values 0 and 1 all standard MR-O-QPSK configurations (other values: C146)",
  "Ranges over all messages and configurations, and over what the machine makes of a NaN.", [f"{B}:check_binary_array", f"{MO}:Mr_ofdm_modulator.bitsToIQ", f"{FS}:Mr_fsk_modulator.bitsToIQ", f"{FS}:Mr_fsk_modulator._FEC", f"{FS}:Mr_fsk_modulator._FSKModulator", f"{Q}:Mr_o_qpsk_modulator.bitsToIQ"])
p("MR-OFDM frames of rate 3/4 survive a lost tone too",
  "A receiver that is told which tones of each symbol are lost and bridges lost bits of the rate 3/4 code as well as those of the rate 1/2 code (the first two bits of a group of four tell the last information bit of the group before) recovers MCS, scrambler and message from every frame bytesToIQ returns, whatever is on the lost tones: with the schemes of rate 1/2 as many tones per symbol may be lost as C139 says, with those of rate 3/4 one tone per payload symbol that does not move down by more than half the bandwidth from one symbol to the next. In particular a continuous wave of any amplitude on any one tone during the whole transmission does no harm in any supported configuration.",
  "every message that fits, all supported configurations and object states, every interference confined to the lost tones and every noise below the thresholds of C100 on the others (exact arithmetic)",
  "Ranges over all messages, tones, amplitudes and configurations.", [f"{MO}:Mr_ofdm_modulator.bytesToIQ", f"{MO}:_encoder", f"{MO}:Mr_ofdm_modulator._interleaver"])
p("What MR-O-QPSK sends for a message with values that are no bits",
  "A NaN switches the bit check of bitsToIQ off, so that octets of 2 and more get into the modulator (C144). With MR-O-QPSK and DSSS, a message that is too long or of a size that cannot be spread raises ValueError, as bits do. Otherwise, in a rate mode with spreading, KeyError is raised exactly if one of the coded values that are sent is no bit; for a message of whole octets that is exactly if a value of 2 or more stands among the first 63 places or the last nine places per 63-bit block after the first (padding included): elsewhere it is never sent. Every other message, and in the rate mode without spreading every message, is sent, with the chips of the coded values in closed form: a coded value is the value xor what the shift register remembers, which depends on how many bits wide the machine makes the register, and a coded value above 0 counts as 1. With MDSSS every message is answered exactly as every bit message of the same length.",
  "every list and array with a NaN, every conversion of NaN to an octet, every width of the shift register, all standard configurations (exact arithmetic for the samples)",
  "Ranges over all messages, configurations, and over what the machine makes of a NaN and of mixed integer types.", [f"{B}:check_binary_array", f"{Q}:Mr_o_qpsk_modulator.bitsToIQ", f"{Q}:Mr_o_qpsk_modulator._FEC", f"{Q}:Mr_o_qpsk_modulator._DSSS", f"{Q}:Mr_o_qpsk_modulator._MDSSS", f"{Q}:Mr_o_qpsk_modulator._insert_pilots"])
p("The power-of-two test of Ofdm_modulator in double precision",
  "The constructor tests math.log(N_FFT, 2).is_integer(), a quotient of two rounded logarithms. With a correctly rounded logarithm it answers as C70 says, that is as if N_FFT were tested for being a power of two, for every N_FFT below 2**44 except 2**29, 2**31 and 2**39, which are refused with ValueError although they are powers of two; of the powers of two below 2**64 exactly nine are refused. Every N_FFT below 2**44 that is no power of two is refused, also if the logarithm of the C library is wrong by one unit in the last place. From there on other numbers can pass: 2**48 - 1 is accepted.",
  "every N_FFT below 2**44, all powers of two below 2**64, all other arguments of any type, every correctly rounded (or accurate) logarithm",
  "Ranges over 2**44 sizes and over the logarithms of all machines.", [f"{D}:Ofdm_modulator.__init__"])
p("How far apart two frames are depends only on where the messages differ",
  "Take two pairs of bit messages, all of one length, the first pair differing exactly at the bit positions where the second pair differs. The binary signals that MR-FSK modulates (encoded, interleaved, whitened) are then two pairs of one length that again differ exactly at the same positions, whatever FEC, interleaving, whitening and modulation. In exact arithmetic the transmitted signals of the first pair are as far apart as those of the second: at every sample for MR-FSK with 2FSK and for MR-O-QPSK (except with DSSS in the rate modes using the 16 or 32 chip sequences for four bits), and on every tone of every symbol for MR-OFDM with MCS 0 to 4. So the smallest distance between two frames is the smallest distance to the frame of the zero message.",
  "every four messages of one length with the same differences, every 2FSK / supported MR-OFDM with MCS 0..4 / standard MR-O-QPSK configuration, every sample, symbol and tone",
  "Quantifies over quadruples of messages of every length.", [f"{FS}:Mr_fsk_modulator.bitsToIQ", f"{MO}:Mr_ofdm_modulator.bitsToIQ", f"{Q}:Mr_o_qpsk_modulator.bitsToIQ"])
p("The distances of coded frames are attained next to every message",
  "The lower bounds of C88 and C89 cannot be improved, whatever the message. MR-FSK with FEC: inverting the message bits j and j+1 (non-recursive encoder) or j and j+4 (recursive encoder) changes exactly six bits of the binary signal. MR-OFDM: with rate 1/2 (MCS 0 to 3 and 5), inverting any single message bit changes exactly ten bits of the coded, interleaved payload; with rate 3/4 (MCS 4 and 6), inverting the bits 3j+1 and 3j+2 changes exactly five. The changed message is accepted whenever the original is.",
  "every accepted message and position, every MR-FSK configuration with FEC, every supported MR-OFDM configuration, every history of the modulator",
  "Quantifies over all messages of all lengths and all positions.", [f"{FS}:Mr_fsk_modulator._FEC", f"{FS}:Mr_fsk_modulator.bitsToIQ", f"{MO}:Mr_ofdm_modulator._encoder", f"{MO}:Mr_ofdm_modulator.bitsToIQ"])
p("The distance of two MR-OFDM frames, exactly",
  "Two modulators with the same supported configuration and MCS 0 to 4 modulate accepted messages of one length. The squared Euclidean distance of the two signals, summed over the useful parts of the symbols (the parts a receiver keeps after removing the cyclic prefixes), is exactly 16, 8, 4, 2, 2 (for MCS 0, 1, 2, 3, 4) times the number of places in which the coded, interleaved payloads differ; over the whole signals it is between that and twice that. The bound of C97 is attained next to every message: inverting any single bit (MCS 0 to 3), or the bits 3j+1 and 3j+2 (MCS 4), gives an accepted message whose signal is, on the useful parts, at exactly the distance 160, 80, 40, 20, 10, and no other message of that length is closer. For MCS 5 and 6 (16-QAM) the distance on the useful parts is exactly one tenth of the sum, over the pairs of bits of the coded, interleaved payloads, of the squared differences of their heights (-3, -1, 1, 3 for 00, 01, 11, 10), hence between 2/5 and 18/5 per differing bit, and over the whole signals between that distance and twice that. The bound is attained there too: with MCS 6, inverting bits 10 and 11 (from 0) of any accepted message of at least 16 bits gives an accepted message at distance exactly 2 on the useful parts; with MCS 5, any accepted message of at least 24 bits becomes, after inverting suitable ones of its bits 17 and 18 (possibly none), one whose signal changes by exactly 4 when bit 6 is inverted; no two messages of one length are closer. Unlike with MCS 0 to 4 (C148), where the messages differ does not determine the distance: next to every accepted message of at least 24 bits there are two messages such that inverting the same bits of both changes the one signal by the smallest distance and the other by more.",
  "every supported configuration, every pair of accepted messages of one length, every position, every history of the modulators",
  "Quantifies over all pairs of messages of all lengths and concerns exact real-valued distances of the signals.", [f"{MO}:Mr_ofdm_modulator.bitsToIQ", f"{MO}:Mr_ofdm_modulator._encoder", f"{MO}:Mr_ofdm_modulator._interleaver", f"{D}:Ofdm_modulator.bitsToIQ"])
p("Pilot values in an array of any shape",
  "If pilots_values is an array with at least one dimension, the constructor of Ofdm_modulator looks only at its first size: it accepts or refuses it, with the same exception, as it does any flat list with that many values. If all further sizes are one, every call of bitsToIQ gives the same samples or the same exception as with the flat list of the same values, and leaves corresponding objects. If the further sizes do not multiply to one (and there are pilots), nothing can be sent: a call that would return samples with the flat list raises the exception numpy raises for storing an array in one element, a call that would fail fails, and only an empty message is still answered with an empty signal; the modulator is never changed. Strings, 0-dimensional arrays, no pilots: as described in C70 and C103.",
  "all constructor arguments, all shapes and values of the pilot array, all states of the modulator, every argument of bitsToIQ",
  "Quantifies over arrays of every dimension and over all states and messages.", [f"{D}:Ofdm_modulator.__init__", f"{D}:Ofdm_modulator._add_pilots_and_padding", f"{D}:Ofdm_modulator.bitsToIQ"])
p("The distances of MR-FSK and half-sine MR-O-QPSK signals, exactly",
  "The squared Euclidean distance of two MR-FSK signals of one configuration, over the shorter one, is the sum over the symbols in which the frequencies differ of 40 - 2 sin(pi h D/2) / sin(pi h D/40) cos(pi h D (40n+19)/40), where h is the modulation index, n the symbol and D the difference of the two frequencies in units of h times half the symbol rate. So with modulation index 1 or 2 the tones are orthogonal in every symbol and the distance is exactly 40 per differing symbol, and with 2FSK and index 1/2 it is exactly 38 for each differing bit at an even place of the frame and 42 at an odd place. With any modulation index k/2 (k = 1..5) a symbol n in which the frequencies are 2e units apart contributes 40 if k e is even, else 38 or 42 (n even or odd); so then the distance of two signals, also with 4FSK, depends only on where the messages differ. (With 4FSK and index 1/4 it does not: inverting the first bit of an octet moves the signal by less than 40 if the second bit is 0 and by more than 40 if it is 1.) With 2FSK, FEC and index 1 or 2, inverting the message bits j and j+1 (non-recursive encoder) or j and j+4 (recursive encoder) gives a signal at exactly distance 240, and no other message of that length is closer. The half-sine pulse of MR-O-QPSK (915 and 2450 MHz) has energy samples_per_symbol/4 from 3 samples on, so signals of messages of one length are exactly samples_per_symbol per differing chip apart. In the DSSS rate modes with the 16 or 32 chip sequences for four bits (rate mode 1 at 780, 915 and 917 MHz, 1 and 2 at 2450 MHz) the distance does not only depend on where the messages differ: of messages of eight octets, zero from the second octet on, those beginning with 0 and 9 are further apart than those beginning with 1 and 8 (samples_per_symbol at least 2, with the half-sine pulse at least 3).",
  "every MR-FSK configuration with modulation index in (0, 2.5], every standard MR-O-QPSK configuration of the two bands, every pair of accepted messages, every history of the modulators",
  "Exact distances of all pairs of signals; a sum of trigonometric terms that tests can only sample.", [f"{FS}:Mr_fsk_modulator._FSKModulator", f"{FS}:Mr_fsk_modulator.bitsToIQ", f"{FS}:Mr_fsk_modulator._FEC", f"{Q}:Mr_o_qpsk_modulator.bitsToIQ"])
p("How many samples a frame can take",
  "The number of samples that bitsToIQ returns depends only on the configuration and on the number of message bits, for all three modulators, and more octets never give fewer samples. MR-OFDM (also for bit messages): never more than 220480, 219680, 109760, 54880 samples for options 1 to 4, which last 1378, 2746, 2744, 2744 symbols of 120 us, and in every option there is a configuration in which every message of 2047 octets is that long. MR-FSK: 20 samples for each of 8 preamble_length + 16 + B/w symbols, w bits per symbol, with B = 16 + 8 L bits for L octets, or 32 (L//2 + 2) with FEC; no bit message takes more than B = 16399, with FEC 32814; but with FEC and no interleaving every message of 16k+23 bits takes longer than every one of 16k+24 bits. MR-O-QPSK: half of the number of chips times samples_per_symbol plus samples_per_symbol minus 1 samples, with DSSS at most 281552 chips (470, 868, 920, 950 MHz), 564640 (780, 915, 917) or 1128320 (2450) for whole octets and 281696, 564928, 1128896 for bits, reached in rate mode 0 by every message of 2047 octets or 16383 bits; with MDSSS the number does not depend on the message at all (5648 to 5696 chips, 10336 to 10432 at 2450 MHz).",
  "every supported or standard configuration, every accepted message, every history of the modulators",
  "Upper bounds over all messages and configurations; tests see single frames.", [f"{MO}:Mr_ofdm_modulator.bitsToIQ", f"{FS}:Mr_fsk_modulator.bitsToIQ", f"{FS}:Mr_fsk_modulator._FEC", f"{Q}:Mr_o_qpsk_modulator.bitsToIQ"])
p("MR-OFDM frames can be received knowing nothing but the sampling frequency",
  "A receiver that is told nothing but samples and sampling frequency finds the long training field, estimates and removes the channel, and recovers the complete configuration of the modulator (MCS, option, interleaving, scrambler) and the complete octets of the message, from every frame that bitsToIQ or bytesToIQ returns: over every channel whose echoes stay within the cyclic prefix and that erases no active tone, if the start is known (noise as in C120); after any number of silent samples or when it starts anywhere within the short training field, with any complex factor other than 0, any samples after the frame and noise as in C124; and with an oscillator that differs by less than half a turn per short training symbol when it starts within the first two of the five symbol lengths of the short training field (noise as in C127).",
  "every supported configuration, every accepted message, every channel, silence, starting point, complex factor, oscillator difference and noise within the bounds, every history of the modulator",
  "It quantifies over all configurations, messages, channels and noise signals at once.", [f"{MO}:Mr_ofdm_modulator.bitsToIQ", f"{MO}:Mr_ofdm_modulator.bytesToIQ", f"{MO}:Mr_ofdm_modulator._PHR", f"{D}:Ofdm_modulator.bitsToIQ"])
with open(os.path.join(os.path.dirname(__file__),'..','properties.jsonl'),'w') as f:
    for x in props: f.write(json.dumps(x)+"\n")
print(len(props))
for x in props: print(x['id'],x['title'])
