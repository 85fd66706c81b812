# Formal model of sun_phy in Lean 4 — design

Code modelled: `/repo/sun_phy` (MR-FSK, MR-OFDM and MR-O-QPSK modulators and shared tools). The code was read as text, never run.

## 1. Layout

| place | content |
|---|---|
| `lean/Verif/Model/*.lean` | the model, one Lean definition per Python function, each with `file:lines` and its simplifications |
| `lean/Verif/Spec/*.lean`  | small specifications that use none of the model's functions: GF(2) polynomials, convolution by taps, Hamming distance, discrete Fourier sums, symbol layout, interleaver of the standard, pulse shapes, and three closed-form *reference transmitters* (`Ref`, `RefQ`, `RefF`) |
| `lean/Verif/Proofs/*.lean`| helper lemmas |
| `lean/Verif/Props/*.lean` | the property theorems (`C01_…`), each file ends with non-vacuity examples |
| `lean/Verif/Tables.lean`  | *tests, not proofs*: the model evaluated by the kernel on the reference tables of the repository (`sun_phy/tests/tables/*.csv`) |
| `tools/`                  | generators of `properties.jsonl`, `MANIFEST.json`, `AXIOMS.md`; the mutation tester `mutate.py` |
| `seeded/LOG.jsonl`        | one line per wrong program tried |

## 2. Modelling conventions

* A bit is a `Bool`, a bit array a `List Bool`. Registers of LFSRs / encoders are `Nat` with the same masks and shifts as the Python.
* Exceptions are values: `Except PyErr α`, one constructor of `PyErr` per exception class; checks appear in source order, so *which* exception is raised is part of the model.
* Methods are `PyM σ α = ExceptT PyErr (StateM σ) α`: attributes assigned before an exception stay assigned. `Pn9`, the rate encoders, `Ofdm_modulator`, and the three `Mr_*` classes are such objects with all attributes the code reads back (an attribute never assigned is `none`, reading it raises `AttributeError`), so history independence (C32) and stage attributes (C87) are real statements.
* Arguments of validated entry points are a small `inductive` of Python values (int, float as exact rational, bool, str, list, bytes, tuple, ndarray with number of dimensions and values, other).
* numpy arrays are `List`s, that is values (C117 models them as references, `Model/Memory.lean`, and proves that for the three modulators no program can tell the difference); 2-D arrays are lists of columns (one column = one OFDM symbol) or of rows, as stated at each definition.
* Table literals of the code are transcribed and checked against independent formulas or a second transcription in `Spec`.

## 3. What is modelled, what is not

Modelled, function by function: `tools/bits.py`, `tools/pn9.py`, `tools/operations.py`, `tools/modulations.py`, `tools/errors.py`; `mr_ofdm/rate_encoder.py`, `fields.py`, `ofdm_modulator.py` (constructor, message splitting, constellation, frequency spreading, pilots and padding, IFFT, prefix, `bitsToIQ`, `subcarriersToIQ` 1-D and 2-D, getters), `mr_ofdm_modulator.py` (all), `mr_fsk_modulator.py` (all), `mr_o_qpsk_modulator.py` (all, including tables).

Not modelled, and why:

* printing: only in C130 (`Model/Console.lean`, `Model/ConsoleOfdm.lean`), where `str` of a float and of an integer array are parameters and the buffering of the output stream is left out; docstrings, plotting, the `tests` and `scripts` directories;
* rounding of the samples, in every property except C109 (MR-FSK), C111 (MR-O-QPSK) and C112 (MR-OFDM): samples are exact complex numbers. C109, C111 and C112 bound the difference between those and the computed samples; the accuracy of `np.exp`, `np.sin`, `np.cos`, `np.sqrt` and `np.fft.ifft` is a hypothesis there. The numbers of samples, sizes and indices that the code computes through floats are modelled exactly; `ceil(a/b)`-style computations are exact in doubles for the sizes that occur. The one place where rounding is observable — the length of `np.arange(0, dt*f.size, dt)` in MR-FSK — is modelled with the rounding function as a parameter and also proved for IEEE-754 binary64 (C44, C76); the check sequence, which the code computes with floating point polynomial division, is proved exact under rounding (C94);
* NaN and infinities, except in messages and in the parameters of MR-FSK (C115); in messages with a NaN, which integer numpy makes of it and how wide a shift register of mixed integer types is (both are parameters of C144 and C146, whose theorems hold for all of them); lists with entries that are not numbers or of unequal lengths, numpy scalars inside lists; the base class `Modulator`, whose method only raises `NotImplementedError`; `math.log(n, 2)` of the `Ofdm_modulator` constructor is the exact test for powers of two, except in C147, where it is computed in doubles (the conversion of integers from `2^1024` on is left out);
* the raised cosine pulse at its removable singularity (a 0/0 in the code) is modelled as 0 in the exact model — what double precision gives there is C111; C62/C83 state exactly when this occurs;
* platform dependent conversion of out of range floats to integers: C02 uses that the result is no octet, C115 has the conversion as a parameter and treats x86 and ARM;
* references: only in C117 (the three modulators) and C118 (the pilot arrays of `Ofdm_modulator`; arrays keep their shape, and an array holds either tones, or values, or a message, or a signal). In C117, arrays that are neither stored nor returned have no address unless they are filled in place, a loop of element-wise writes is one write, complex arrays are not handed over as messages, and the program does not write through private attributes;
* threads: only in C113 (`Model/Concurrent.lean`: method bodies as sequences of accesses to the attributes of the object, a switch is possible between any two). There, arrays assigned to attributes are values (two attributes naming one array occur only in MR-FSK for `_PHR_PSDU_scrambled`), and attributes that are never read back by another part of the method (`_s`, `_pulse`, `_phr_subcarriers`, …) are not shared.

## 4. Trusted base

* Lean's kernel (every proof, including `decide`/`decide +kernel`, is accepted by it; no `native_decide`, `bv_decide`, no added axioms, no `sorry`).
* Axioms: at most `propext`, `Classical.choice`, `Quot.sound`. `AXIOMS.md` lists every theorem of the manifest with its axioms (`tools/axioms.py`).
* Mathlib's definitions of `ℝ`, `ℂ`, `exp`, `Polynomial`, `Finset.sum`.
* The reading of the Python/numpy source recorded in the comments of the model; the semantics of the numpy operations used (slicing, reshape, broadcasting, `polydiv`, `ifft`, `arange`, `repeat`).

## 5. Properties

`properties.jsonl` has the statements, `MANIFEST.json` the theorems. Status *partial* is used only for properties that are **false of the code**: then the refutation, the part that holds (`_partial`) and an exact companion property (C71–C86) are proved. 

### Shared tools
* **C01–C03** `to_binary_array`, `check_binary_array` over the value type; list induction; both outcome directions. **C115** the same with NaN and infinities (`Model/SpecialFloats.lean`): minimum and maximum with IEEE comparisons, machine conversions as parameters.
* **C04** (false: the flags of `to_bin` and `to_int` have opposite meanings) → **C85** exact. **C128** the helpers for any integer, array and string (`Model/BitsFull.lean`): arithmetic of digits (value of an append), and the literals of the source evaluated by the kernel.
* **C05–C07** PN9: the orbit of 511 states is computed once by the kernel and lifted to all seeds and times; operation sequences by induction against a tape specification; negative seeds reduced to residues (`Model/Pn9Int`).
* **C08–C09** constellation maps as Gaussian integers, induction on blocks; reals for the power.

### MR-OFDM
* **C10–C13** register machine refined to the tap formula (any seed); potential-function certificate for the minimum distance (64 states in the kernel, lifted by induction to all messages). **C129** the encoders for any integer seed and numeric array (`Model/RateEncoderFull.lean`): induction over the array with the memory cells as invariant; restricts to the encoder of the modulators (`C129_nat`).
* **C130** the printing methods once more with every `print` in place, over `Console` (object and lines so far). A compositional relation `Shadows` (same outcome, same object, output extended) gives `C130_same`; the lines are computed stage by stage and compared with `Spec/ConsoleLines.lean`; induction over the symbols for the pilot lines.
* **C14–C17** integer-list model of `np.polydiv`; refinement to `Polynomial (ZMod 2)`; parity and order argument for distance 4.
* **C18** (false for rate 3/4) → **C71**. **C20** (false for 16-QAM: permutations composed in the other order) → **C72**. **C22** (false when no padding) → **C73**. **C30** (false for MCS 7: IndexError) → **C74**.
* **C19, C21, C23–C29** block permutations by explicit inverse; placement function with pilot state by induction over symbols; finite Fourier sums.
* **C31, C32** composition of the stage inverses; state-passing over all operation lists.
* **C67** every frame equals the closed-form transmitter `Ref.frame`. **C70** constructor of `Ofdm_modulator`. **C87** attributes. **C89** distance of coded payloads. **C90** pilot coverage. **C91** symbol energy. **C92** constellation mappers for every argument type, axis and bit order. **C93** `subcarriersToIQ` on symbols and 2-D grids. **C94** the HCS computed in rounded arithmetic is exact up to 53 bits. **C95** interleaver separation. **C97** Euclidean distance of frames and the noise it tolerates (Parseval, Gray distance per bit, C89). **C98** the same for headers and messages of different lengths. **C100** a receiver (`Spec/OfdmReceiver.lean`) decodes every frame: DFT inversion, decision margins, inverse interleaver and code. **C103** every *running* `Ofdm_modulator` that its constructor accepts, also with negative paddings, pilot indices out of range or pilot lists of any size (`Model/OfdmFull`): which runs are refused and what the others emit, by case analysis on numpy's slice/index rules against `Spec/OfdmRun.lean`. **C104** for every such modulator with data tones different messages give different signals; without data tones the outcome is stated exactly (free-tone counting, C91-style inversion of the DFT). **C105** (all modulations) peak amplitude: triangle inequality on the inverse DFT, pulse bound for O-QPSK, unit modulus for FSK. **C106** locality: congruence of the closed-form transmitter stage by stage (code memory 6, block interleaver, symbol), and headers that depend on the octet count only. **C107** (MR-FSK) causality of code, interleaver, whitening and modulator by congruence of `RefF`, with the converse from the tap 0 of both generators. **C108** (MR-O-QPSK) the reference transmitter for messages that are not whole octets. **C112** the samples with machine arithmetic (`Model/MrOfdmDouble.lean`): the same code over a type whose product is the machine's, error propagation through mapping, spreading, inverse FFT (norm-wise error of the FFT is a hypothesis), training fields; then C100. **C113** (all modulations) interleaved calls: simulation between thread bodies and methods, independence of separate objects and finiteness by induction on the schedule, parameters invariant on a shared object, and constructed schedules for the races. **C114** (MR-O-QPSK) constructor arguments of any Python type (`Model/MrOqpskRaw.lean`): equality with the integer model stage by stage, inversion of the method body for success and exceptions. **C120** multipath: the channel is a convolution (`Spec/OfdmEqualiser.lean`); because the prefix repeats the end of each symbol, echoes within it are a cyclic shift, so each tone is multiplied by the frequency response; division by the training estimate leaves an error below the decision distance of C100 (Parseval for the noise), then the receiver of C100. **C124** synchronisation (`Spec/OfdmSync.lean`): normalised correlation with the long training field; its value at every offset of the short training field is bounded by an evaluation in integers (`Proofs/OfdmSyncCheck.lean`: all samples packed into one large number, sums of products read off as digits of a product, `Proofs/BigDot.lean`), error bounds for the roots of unity (`Proofs/OfdmSyncTable.lean`), then perturbation bounds in an inner product space and C120. **C125** frames survive a difference between the oscillators: the angle between the two long training symbols is measured with error at most `4ε/g` (`Proofs/OfdmCarrier`, Cauchy–Schwarz and a bound on `arg`), what remains of the turn is counted as noise, then C120. **C127**: a receiver that knows neither start nor oscillator: C124 for the tuned signal; energy of every window of a frame from the blocks it meets (Proofs/OfdmWindow.lean), the angle between two short training symbols by the estimate of C125 (Carrier.measure), and what the remaining turn adds to the noise of a window by Carrier.detune.

### MR-FSK
* **C33–C42, C64, C65** pipeline, explicit receiver (C41), distance certificate. **C43** (false for non-integer index: exactly the integer indices work, 2FSK and 4FSK) → **C75**. **C44** (false in doubles) → **C76**. **C45** (false: mode switch returns nothing).
* **C69** every frame equals `RefF`. **C88** distance of frames. **C99** Euclidean distance of the signals (pairing samples 10 or 2 apart). **C101** a receiver (`Spec/FskReceiver.lean`) decodes every signal: nearest-tone decisions, then the inverse of each stage. **C109** the same signal with every operation rounded (`Model/MrFskDouble.lean`): relative-error calculus over the eleven roundings of a phase, Lipschitz bound of the exponential, then C101. **C110** synchronisation (`Spec/FskSync.lean`): the view of the frame `k` bits before the delimiter depends on `k` only through `min(k, 16..19)`; finite table in the kernel, triangle inequality for bit errors. **C121** discriminator receiver (`Spec/FskDiscriminator.lean`): the products of consecutive samples have the angle of the tone plus the carrier offset whatever gain and phase are; perturbation bound for the products, monotonicity of the cosine for the margin; delimiter search with a missed part of the preamble from the tables of C110.

### MR-O-QPSK
* **C46–C49, C51, C52, C57, C60, C63** as stated. **C50** (false from two blocks on) → **C77**; **C53, C55** (false: odd block counts raise) → **C78**; **C54** (false: MDSSS ignores the data) → **C79**; **C56** (false) → **C80**; **C58** (false for 2450 MHz) → **C86**; **C59** (false) → **C81**; **C61** (false) → **C82**; **C62** (false when 32 divides samples per symbol) → **C83**; **C66** (false) → **C84**. C57, C58, C60, C61, C66, C82, C84 and C86 are also stated on the signals the public methods return (`Props/C60Api.lean`, theorems `*_api`).
* **C68** every frame equals `RefQ`. **C96** which bit messages (any bit count) are modulated. **C102** a receiver (`Spec/OqpskReceiver.lean`) decodes everything a frame contains: correlation margins by Cauchy–Schwarz, backward decoding of the tail. **C116** distances of the signals: chips differing, through pulse energy, code distances of the spreading tables, differential encoding (at most halves), free distance of the rate 1/2 code (10) for single-block messages, first/last difference otherwise. **C111** the samples with every operation rounded (`Model/MrOqpskDouble.lean`): relative errors of the time grid, Lipschitz bounds of sine and sinc, lower bound of the raised-cosine denominator off its zeros, convolution exact because the upsampled chips are sparse; at the zeros (32·2^n samples per symbol) exact double arithmetic in the kernel plus invariance of rounding under powers of two (`Proofs/Float64.lean`). **C119** synchronisation (`Spec/OqpskSync.lean`): silence and SHR as one number whose bits are the chips; all window distances by the kernel with a bit count that is proved correct (nine masked slices modulo 511), then the triangle inequality and C102. **C122** start, strength and phase unknown (`Spec/OqpskGain.lean`): complex correlation of the delimiter with every window of silence and SHR, real and imaginary part by two bit counts in the kernel (`Proofs/OqpskBlind.lean`), Cauchy–Schwarz for the noise, then C102 with the signal divided by the estimated factor. **C123** the exact loss of C59/C79 for any number of bits: the partial last block adds one or two interleaver positions, the tail is decoded backwards from an odd coded position with the second generator (`Proofs/OqpskLossBits.lean`). **C126** oscillators that differ (`Spec/OqpskCarrier.lean`): the preamble has period a quarter of its length (`shr_period`), so the angle between two quarters is measured with the bound of C125 (`Carrier.measure`), the remaining turn over the frame counts as noise (`Carrier.detune`), then C122.

### All three modulators
* **C117** arrays as references: a relational logic (`Proofs/Memory.lean`) between a method body with memory and the one with values — nothing that existed before changes, new arrays only — used for each class, and an invariant over all programs: arrays of the program, arrays of attributes and tables are disjoint.
* **C118** pilot arrays as references (`Model/MemoryPilots.lean`): a simulation between memory and the world in which modulators look at numbered arrays (`Spec/PilotArrays.lean`, `copying = false`), and, for programs that do not write to arrays handed over, between that world and the one with copies (`copying = true`).
* **C131** recordings of several frames: `Spec/Recording.lean` iterates the receivers of C100, C101, C102 with the frame size read from the header; the windows the receivers look at lie inside the frame, so what follows does not matter; induction over the sequence of frames.
- **C132** spectrum of an MR-OFDM frame: `Sa.spectrum` is the plain Fourier sum of a window, `Sa.InUse`, `Sa.edge`, `Sa.Short` list the tones (Spec/Spectrum.lean, independent of the model). Proof: the reference frame of C67 shows a multiple of one wave in each window (C120), the wave is expanded and the tones separated by orthogonality; tone values are bounded by C91.
- **C133** blind receiver: `Rx.receiveAny` (Spec/OfdmBlind.lean) gets samples and sampling frequency. The header is followed through check sequence, code and interleaver with every bit written as a sum of the 18 free information bits (a mask, Proofs/HeaderParity.lean); one evaluation per option and interleaving shows that the parity of the tell-tale positions is constant and differs between the two settings. The rest is C100.
- **C134** uniqueness for MR-FSK: samples give the rotation in each symbol, hence modulation index times deviation (Props/C134.lean); 2FSK and 4FSK cannot be confused because a header always has inner frequencies in 4FSK; preamble, SFD group and FEC flag by the distances of C110; FEC scheme and interleaving by linear algebra on the coded header (masks, Proofs/FskHeaderMasks.lean: for each pair of settings a fixed combination of the 32 header bits gives a contradiction, or, for interleaving, leaves one header of 1436 or 134 octets, which the padding in the last block excludes, Proofs/FskTailBlock.lean); the flags by the receiver of C101 and the message by inverting the code over its whole length. Bit messages of any non-zero length: with fewer than 8 bits the header can be all zeros, and then the padding shows 2FSK and 4FSK apart.
- **C135** uniqueness for MR-O-QPSK (Props/C135.lean): the zeros of a signal are those of the pulse, repeated every `sps` samples; two signals with the same zeros have a common period (Euclid) and no pulse has a period shorter than its samples, so `sps` is determined; the middle sample tells half sine from raised cosine; the first 64 chips tell the band group; spreading and rate mode by the header distance of C116; the message by C123. Bands of a group share every table, so the modulators agree on every argument.
- **C136** kind of modulator from the first sample (Props/C136.lean): for MR-OFDM the quarter-symbol prefix turns each even tone by a multiple of a half turn, so the first sample is `5/4·√P·S/√N` with an integer `S` computed by the kernel; MR-FSK starts with phase 0, MR-O-QPSK with the zero of its pulse. Together with C133, C134, C135: what the whole signal determines.
- **C137** lost tones (Spec/OfdmDiversity.lean, Props/C137.lean): the decoding part of C100 is redone for an arbitrary source of coded bits; the source here decides on the first copy outside the lost tones. Pigeonhole: the copies of a value are on different tones. Interference on lost tones is a combination of tones of the same transform, so it vanishes on the others.
- **C138** separation (Props/C138.lean): the receiver of C133 applied to one of two frames must put out both configurations when the frames agree within 1/36 (128/36² < 1/10); first samples by C136; machine arithmetic by the error bounds of C109, C111, C112.
- **C139** lost tones and coding (Spec/OfdmErasures.lean, Props/C139.lean): each information bit of the rate 1/2 code is the sum of one of its two coded bits and earlier information bits, so one of the two is enough; C95 says the two are on different values, so both are lost only if twice as many tones are lost as a value has copies.
- **C140** lost MR-FSK symbols (Spec/FskErasures.lean, Props/C140.lean): both codes are sums over a shift register with generators [0,2,3] and [0,1,2,3], so a register bit is found from either bit of its pair, or as the sum of the two bits of the next pair (`register_ok`, strong induction); the interleaver sends neighbouring pairs 4, 11 or 31 pairs apart (`pair_gap`).
- **C141** destroyed chips of MR-O-QPSK (Spec/OqpskHard.lean, Props/C141.lean): chips with less disturbance than their energy are decided correctly (Cauchy-Schwarz), so in a group at most the damaged chips are wrong; fewer wrong chips than half the distance leave the right code nearest (`wins_hard`); the rest is C102, whose proof is split at `Decided`.
- **C142** fading (Props/C142.lean): with |im z| < re z the chip keeps its sign in every sample (`part_fade`), hence in the sum; the rest is `C141.decided_of_right`.
- **C143** fading for MR-FSK (Spec/FskFading.lean, Props/C143.lean): the product of two neighbouring samples has a positive gain and is turned by the phase change only (`step_fading`); less than half the tone distance leaves the right tone the best in every product, hence in the sum (`decision_ok`); the rest is `C121.receive_decided`.
- **C144** messages with a NaN (Model/NanMessages.lean, Spec/NanMessages.lean, Proofs/Nan*.lean, Props/C144.lean): the chain after the check is modelled again on octets; on bits it is the old one (`modulator_bits`, `binary_bits`); MR-OFDM by `counts_xor` (the encoder asks only whether a whitened value is positive); MR-FSK by the decimal digits that are the keys of the table of frequencies (`key_fails`), and for the non-recursive encoder by the fact that a register of 8 or more counts modulo 8 (`encodeV_zero`).
- **C145** lost tones and rate 3/4 (Spec/OfdmBridge.lean, Props/C145.lean): the sum of both generators at one place is two earlier information bits (`bits34`), so the first two bits of a group replace the last bit of the group before; that two neighbouring coded bits are never on the same tone is checked once per configuration on the table of tones (`one_of_two`), and at the border of two symbols it follows from the distance of the first and last tones.
- **C146** MR-O-QPSK and values that are no bits (Model/NanOqpsk.lean, Spec/NanOqpsk.lean, Proofs/NanOqpsk*.lean, Props/C146.lean): the shift register of any width is an or of shifted values (`Nan.memory`); an xor with a bit keeps a value at 2 or more (`xor_large`), and neither differential encoding nor interleaving can make it a bit, so the table of codes is asked for it exactly if its place is sent (`source_range`: the interleaver reads, wrapping around, only the first block and the end of the array); MDSSS sends chips that do not depend on the message at all (as C66).
- **C147** the power-of-two test in doubles (Model/OfdmLog.lean, Spec/Doubles.lean, Proofs/Doubles.lean, Props/C147.lean): between two powers of two `log2` stays away from the integers by more than the rounding errors (`between`, by Bernoulli's inequality); for powers of two, `ln 2` is enclosed to 100 bits by its series (`ln_two`), a number in an interval without a rounding boundary is rounded as its ends are (`nearest_eq`), and the 64 quotients are computed by the kernel (`power_table`).
- **C148** the distance of two frames depends only on the difference of the messages (Spec/Differences.lean, Proofs/Affine.lean, Props/C148.lean): every stage of the reference transmitters (padding, coding, puncturing, interleaving, whitening, differential coding, spreading with the 8 chip sequences, pilots) is affine over GF(2), so it maps quadruples with the same differences to such quadruples (`L.*`); BPSK, QPSK, 2FSK and O-QPSK values have distances that depend only on which bits differ.
- **C149** the bounds of C88 and C89 are attained (Spec/Flips.lean, Props/C149.lean): the difference of two data sequences passes through the encoder as through a linear filter (`tap_shift`, `rsc_differ`), its response to the chosen pattern is finite and is counted by the kernel (`shift_count`), and interleaving keeps the number of differences.
- **C150** exact distances of MR-OFDM frames (Props/C150.lean): Parseval on the useful part of each symbol, equality instead of the inequality of C97 on BPSK/QPSK points, the header symbols of messages of one length coincide, and C149 gives the neighbours at the smallest distance; for 16-QAM the same sum in terms of the heights of bit pairs, and per-bit bounds (C150_sixteen); the minimum is attained because the interleaver pairs code bit k with k+12, so the changed bits can all be second bits of a pair (MCS 6, always) or stand next to ones (MCS 5, after choosing bits 17 and 18): C150_least, C150_five, C150_six; next to zeros instead of ones they cost more, which shows the exclusion of 16-QAM in C148 to be necessary (C150_not_differences).
- **C151** pilot values of any shape (Model/PilotShapes.lean, Spec/PilotShapes.lean, Props/C151.lean): the model of C70/C103 with the values as shape and entries; equality with the flat model by induction on the pilot and symbol loops, and failure at the first pilot otherwise.
- **C152** exact distances (Props/C152.lean): Lagrange's sum of cosines over the 20 samples of a symbol on top of the closed-form reference of C69; integer index by `sin(k pi) = 0`; the closest messages by C88 and C149; half-sine energy by reflecting the sum of squared sines about the middle of the pulse, on top of the chip formula of C116. Props/C152Long.lean: the exception of C148 is needed (chip counts of four concrete messages by kernel evaluation, for every modulator history, rate and over-sampling).
- **C153** frame sizes (Props/C153.lean): the size formulas of C28, C69 and C96 are monotone in the message size, and their values at the largest sizes are evaluated by the kernel for every configuration; MDSSS frames by reduction to a size that does not mention the message.
- **C154** reception without knowledge of the configuration, over a channel and from anywhere (Spec/OfdmBlindSync.lean, Props/C154.lean): the equaliser (C120) after alignment (C124) or coarse tuning (C127) delivers tones within the margins, from which the parity of C133 tells the interleaving setting and the receiver of C100 the rest.

## 6. Testing the theorems against wrong programs

`tools/mutate.py` applies one edit to a scratch copy of the model, rebuilds, and records which declarations fail and which theorems of the manifest become unavailable; a mutation that leaves the theorem of the claim it breaks intact is a survivor and the theorem is tightened. `seeded/LOG.jsonl` is the record. Theorems tightened so: the HCS preset, C10 (arbitrary encoder seeds), and those marked in the log.
