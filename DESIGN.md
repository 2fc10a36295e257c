# Design of the analog-cim-sim model

Subject: `rpelke/analog-cim-sim` (C++ crossbar simulator) as found in `/repo`.
The code is read as text only; nothing is built or run.

## 1. Shape of the model

* **Outcome.** Every C++ function becomes a function into `C a = Except Fault a`.
  `Fault` separates undefined behaviour (signed overflow, bad shift, out-of-bounds access, null
  dereference, modulo by zero, float-to-int out of range), `std::exit`, `abort()`, an escaping C++
  exception, and `nonfinite` (an IEEE infinity/NaN appears; the model stops there).
  A theorem that says "`= .ok r`" therefore says "defined, and the value is r".
* **Integers.** `int32_t`/`int` values are Lean `Int`s; each arithmetic operation checks the 32 bit
  range.  Masks use 32 bit `BitVec`.  `<<` of a negative value is what gcc/clang compute, unless the
  environment flag `strict` is set: then it is undefined as in ISO C++17.
* **Floats.** Analog quantities live in an arbitrary linearly ordered field `K` with floor.  Each
  `float`/`double` operation is the exact operation followed by `E.f32`/`E.f64` of the environment
  `E`.  `f32 = f64 = id` gives the exact-arithmetic theorems (`ExactArith`); safety, frame and
  counting theorems hold for every `E`; `SpecFloat.lean` has a computable IEEE round-to-nearest-even
  (binary32, binary64) on the rationals for counterexamples and for exactness theorems (`Ieee`).  Overflow to infinity, NaN,
  signed zero and subnormal traps are not modelled (division by zero gives `nonfinite`).
* **Containers.** `Vec`/`Mat` carry their size; reads and writes are bounds checked.  Buffers that
  survive between calls in the C++ objects (`vd_p_`, `tmp_out_`, ...) are part of the model state, so
  "no stale data leaks" is a theorem and not an artefact.
* **Random numbers.** Normal samples come from an arbitrary stream `E.gauss`; theorems quantify over
  all streams.
* **Configuration** is a state machine over JSON documents with the stale-field semantics of the
  global `CFG` object.
* **API** (`cpy_mtrx`, `exe_mvm`, `set_config`, `update_config`, getters, pybind variants) is a step
  function on a world (config, crossbar pointer, histograms, random stream position).

Property theorems are in `lean/Verif/Props/`, the specification they refer to in
`lean/Verif/Spec.lean`, the model in `lean/Verif/Model/`, helper lemmas in `lean/Verif/Lemmas/`.

## 2. Proof method

No symbolic execution and no bounded search: all theorems are by induction over loops, rows, columns and
call sequences.

* **Closed forms.** For each function an equation `f ... = .ok (closed form)` under the preconditions
  (`Lemmas/Basic`, `Blk`, `Digits`, `DMvm*`, `AMvm*`).  An equation with `.ok` is total correctness: no
  fault, no undefined behaviour, and this value.
* **Safety pass.** `Sat F x Q`: `x` ends with a result in `Q` or with a fault in `F`
  (`Lemmas/Sat`, `Shape`, `Safe*`).  `F` = "not out of bounds" gives memory safety without any
  assumption on values, `F = False` totality, `F = True` invariants.
* **Inversion.** From `f ... = .ok r` what must have happened (`WriteInv`, `ApiInv`, `SessionInv`, ...).  Used
  for every statement about reachable states.
* **Two runs.** `Rel w R x y` relates the runs of two crossbars (`Det*`): repeatability, independence of
  scratch buffers.  `Lead R x y` is the one-directional form (`HistFree`): profiling only observes.
* **Histories.** `Runs E cfg h x` (`Spec.lean`): `x` is reachable by the calls `h`.  Theorems about "any
  history" are about every `h`.
* **Schedules.** `SpecSched.lean`: arbitrary interleavings of the reads and writes of the elements of a
  parallel loop.
* **Concrete cases.** Beside each theorem an `example` instantiates its hypotheses; false properties are
  refuted by evaluating the model in the kernel (`decide +kernel`) on a small configuration.

## 3. Properties

The table says where each property is modelled and in which file its theorems are; `MANIFEST.json` has
their names.

| id | modelled code | theorems in `Props/` |
|----|-------------|------------------|
| C01-C03, C05-C08, C12, C13, C55 | mappers' `d_write`, `d_mvm`, `Crossbar::write/mvm` | `Digital` |
| C09, C45, C47, C48, C53, C57, C58 | `interface_pybind.cpp` | `Api` |
| C04, C10, C11, C14 | all | `Safety`, `Analog`, `IntRange` |
| C15, C16, C38 | `a_write_*`, `add_gaussian_noise` | `Currents` |
| C17-C19, C26, C27 | `a_mvm` + `adc.cpp` | `Analog` |
| C20 | the same with IEEE rounding | `Float` |
| C21-C25, C28 | `adc.cpp` | `Adc` |
| C29, C44, C46, C56 | `config.cpp`, `definitions.h` | `Config`, `SameFile` |
| C30, C31 | counters in `crossbar.cpp`, `mapper.cpp` | `Counters` |
| C32-C36, C39, C54 | `read_disturb.cpp`, `mapper.cpp` | `Disturb`, `Config` |
| C37 | `Crossbar::mvm` | `Repeat` |
| C40-C43 | `parasitics.cpp` | `Parasitics`, `ParSafety` |
| C49, C50, C59, C60 | `histogram.cpp`, `adc.cpp:profile_inputs` | `Profile` |
| C63 | the profile across calls of the interface | `ProfileApi` |
| C51, C61 | `interface_emu.cpp` | `Emu` |
| C52 | element-wise parallel loops | `Sched` |
| C62 | `a_mvm` with deviating cells, `add_gaussian_noise`, `a_add_c2c_var` | `Noise` |
| C64 | results under read disturb, all mitigations | `DisturbError` |
| C65 | `a_mvm` in rounded arithmetic, binary32 in particular | `Rounding` |
| C66 | `set_config`/`update_config`, then `cpy_mtrx` and `exe_mvm` | `EndToEnd` |
| C67–C68 | `a_mvm` with deviating or disturbed cells and a real converter | `AdcNoise` |
| C69 | the same in rounded arithmetic, binary32 in particular | `RoundAdc` |
| C70 | error of the integer mappings in rounded arithmetic | `RoundInt` |
| C71 | reading back states, currents and counters | `Getters` |
| C72 | histogram of integers | `SimpleHist` |
| C73 | wear of the whole crossbar | `Wear` |
| C74 | sessions under read disturb return | `DisturbTotal` |
| C75 | resistive wires and a real converter | `Wires` |
| C76, C77 | values of a configuration file, accepted files | `Load` |
| C78 | inputs that do not fit, digital and analog | `InputRange` |
| C79 | accepted updates take effect | `Update` |
| C80 | `SPLIT` and `W_BIT` | `Split` |
| C81, C82 | when `set_config` and `update_config` return | `Build`, `Patch` |
| C83, C84 | switching variation on and off | `Variation` |
| C85 | the configuration files in `cpp/test/lib/configs` | `Shipped` |
| C86 | resistive wires in integer mappings | `WiresInt` |
| C87 | whole programs over several configurations | `Program` |
| C88 | real converters whose range is too small | `Saturate` |
| C89 | out-of-bounds flag of the read disturb model | `Oob` |
| C90 | the read disturb tests for all numbers of cycles and reads | `RdTest` |
| C91 | the exact result of a multiplication through a real converter | `Reading` |
| C92 | the converter tests for all resolutions, matrices and inputs | `AdcTest` |
| C93 | programs that use the emulation library | `EmuRun` |
| C94 | the variability test and the update tests for all inputs | `UpdTest` |
| C95 | the tests of the wires for all inputs | `WireTest` |
| C96 | where a configuration comes from | `Source` |
| C97 | keys that are no parameters | `Keys` |
| C98 | the getter tests for all matrices | `GetTest` |
| C99 | which calls on a digital crossbar return | `Return` |
| C100 | operands outside the alphabet of a binary or ternary mapping | `Alphabet` |
| C101 | which writes an analog crossbar carries out | `ReturnA` |
| C102 | a call is the call with the operands the mapping sees | `Seen` |
| C103 | arrays passed from Python | `Numpy` |
| C104 | which multiplications on an analog crossbar return | `ReturnM` |
| C105 | calls do not look behind their operands | `Local` |
| C106 | the unit of the currents does not matter | `Units` |
| C107 | rows of the weight matrix are independent | `Rows` |
| C108 | equal rows give equal results | `Twin` |
| C109 | the order of the products and of the results | `Rank` |
| C110 | the order of the columns | `Columns` |
| C111 | the opposite input adds the opposite number | `Odd` |
| C112 | matrices wider than the crossbar, tile by tile | `Tiles` |
| C113 | where a row is stored; blocks of rows | `Place` |
| C114 | columns with the input zero | `Pad` |
| C115 | opposite signs of columns and inputs | `Flip` |
| C116 | pairs of mappings that do the same | `Related` |
| C117 | matrices of the opposite sign | `Mirror` |
| C118 | more input bits than necessary | `Widen` |
| C119 | more weight bits than necessary | `Thick` |
| C120 | rows of zeros | `Blank` |

Where a property is false of the code, the negation is proved with a concrete witness, the strongest
true restriction is proved under a name ending in `_partial`, and the disagreement is listed in section 5.

## 4. Trusted base and simplifications

Lean 4.33 kernel; axioms at most `propext`, `Classical.choice`, `Quot.sound`; the reading of the C++
source reflected in the model (each definition cites file and lines).  Not modelled:

* printing, memory exhaustion, JSON text (documents are values; a file is missing, bad or good), changes of files and
  of the environment variable during a call (`Model/Host` says which file is opened);
* the generators `mt19937`/`normal_distribution` (arbitrary samples instead);
* IEEE overflow, NaN, signed zero; contraction of `a*b+c` into one rounding; reassociation;
* `uint64_t` wrap-around of counters and `size_t` index products (sizes are natural numbers);
* aliasing: caller's buffers do not overlap each other or the crossbar;
* `DEBUG_MODE` code, `num_threads` and TBB internals;
* callbacks of the emulation library that call back into it;
* static initialisation order across translation units (the mode table of `config.cpp` against the globals of
  `interface_pybind.cpp`);
* pybind11 itself: `Model/Numpy` takes from its documentation which arrays are converted and in which order.

## 5. Disagreements between property and code

Proved in Lean (theorem in brackets):

* **C01** `digital_only` INT constructors read the uninitialised `i_mm_` [`C01_strict_uninit`]; left shifts of
  negative values are undefined in ISO C++17, the theorems assume gcc's definition.
* **C08** In `I_OFFS_W_DIFF`, `BNN_I`, `BNN_II`, `TNN_III` a multiplication with fewer columns than
  written uses the row sums of the full width [`C08_false_for_row_sums`].
* **C09** `exe_mvm_pb` checks neither the pointer nor the dimensions [`C09_false_null`, `C09_false_dims`];
  with `M = -1`, which is accepted and wraps to 4294967295, no number of rows is rejected
  [`C09_false_negative`].
* **C11, C14** Several mappings do not look at values outside their alphabet, and weights beyond the slices are
  cut without report [`C11_false_for_weights`, `C11_false_for_inputs`, `C14_false`];
  `I_OFFS_W_DIFF` even mixes cut weights with the uncut row sum [`C14_computed`].
* **C20** In single precision, truncation after a rounded `1/(LRS-HRS)` loses ones, in every mode [`C20_false`].
* **C26, C27** `TNN_IV`, `TNN_V` with a positive-range converter: the offset pushes legal currents out of the range
  [`C27_false_tnn4`, `C27_false_tnn5`, `C26_bound_false`]; where scaled currents are not integers no
  resolution is exact [`C26_exact_false`].
* **C31, C33** Read disturb of the second array: `rd_update` skips `ia_m` in mappings that are not differential
  [`C31_false_for_minus`, `C33_false_for_minus`].
* **C36** LRS noise breaks the tolerance [`C36_false_with_noise`].
* **C39, C54** With cycle-to-cycle variation the multiplication starts from the originally programmed currents, so
  disturb is lost [`C39_false`, `C54_false_with_c2c`]; update frequency 0 is accepted and divides by zero
  [`C54_zero_unusable`, `C54_false_frequency`].
* **C108** In the integer mappings cycle-to-cycle variation only treats the first `m` rows of cells and tells equal rows
  of weights apart, even with zero standard deviations [`C108_c2c`].  In TNN_IV and TNN_V the reads of a multiplication
  with `m` rows are counted for `2 m` rows of cells, so that refreshes of single cells tell equal rows apart [`C108_reads`].
* **C109** A coarse converter can reverse the order of two rows in all mappings except BNN_V, BNN_VI and TNN_I: the others
  add several readings, or correct a reading by a number that depends on the row [`C109_others`].
* **C110** In `float` the result depends on the order of the columns [`C110_float_false`].
* **C111** `ADC::convert` rounds the distance to the lower end of the range, so a current halfway between two levels goes
  to the upper one for both signs: in BNN_VI and TNN_I a product of 2 can give 4, and -2 gives 0 [`C111_false`].
* **C114** I_OFFS_W_DIFF and TNN_III apply a voltage for the input zero and subtract the row sum afterwards.  With a
  converter that limits the current, columns with the input zero change the result [`C114_iff`].
* **C115** Only BNN_V, BNN_VI and TNN_I form a current from the products of weights and inputs; the other mappings with signed
  inputs convert the parts separately, so equal products can give different results [`C115_iff`].
* **C117** A current halfway between two levels is read as the upper one for both signs, and the mappings with one cell per
  weight or unequal cells do not negate their currents, so the opposite matrix can add other than opposite numbers [`C117_never`].
* **C118** In I_OFFS_W_DIFF the offset grows with `I_BIT`, and in I_TC_W_DIFF the sign is repeated in every further bit; the
  additional conversions round, so the result depends on the number of bits [`C118_iff`].
* **C119** In I_UINT_W_OFFS the offset of the weights grows with `W_BIT`, so the result depends on it [`C119_offset`].
* **C120** In I_UINT_W_OFFS, TNN_IV and TNN_V the currents of zero weights are converted before they cancel, so a row of zeros
  can add a number other than zero [`C120_others`].
* **C42** The solver never sees read-disturb or variation updates, and converts only the first `M` cell rows
  [`C42_false_disturb`, `C42_false_variation`, `C42_false_slices`].
* **C43** Out-of-bounds accesses of the solver [`C43_false_*`].
* **C44, C46** Missing checks (resolution 0; read disturb in digital INT) and parameters that survive a reload
  [`C44_false_*`, `C46_false_*`].  Apart from these, crossbars built from the same file answer every list of calls
  alike, whatever ran before [`C46_digital_partial`, `C46_behaves_partial`].
* **C47** An exception in `update_config` leaves the old crossbar with the new configuration [`C47_false`].
* **C48** `w_res` is not a structural key [`C48_false_stale`, `C48_false_null`].
* **C49, C50, C59** The top value of the range is counted one past the last bin; labels are the upper ends of bins;
  the variance of non-integer labels is wrong [`C49_false_top`, `C49_false_mvm`, `C50_false_all`,
  `C59_false_variance`].  Histograms are global and keep the range of the configuration under which a layer was first
  profiled; reconfiguring with a larger LRS writes out of bounds [`C49_false_reconfigured`].
* **C51** Intermediate sums of the emulation library may overflow [`C51_overflow`]; return codes of callbacks are
  dropped.
* **C65** Mappings that add currents before they remove the offset are off by two with three cells if the window is
  small against the currents [`C65_window_matters`].
* **C67** A conversion whose deviation is exactly one half already gives a wrong answer
  [`C67_half_sharp`]; below one half every answer is exact [`C67_absorbed`].
* **C62** The ideal converter truncates towards zero instead of rounding, so an arbitrarily small deviation of a cell can
  change a result by one, in every binary and ternary mapping [`C62_not_rounded`].
* **C71** Without read disturb the getters of its counters announce "empty/default values" and then end the program
  [`C71_without_disturb`]; the C++ getters dereference a null pointer without a crossbar [`C71_unloaded`]; an illegal
  weight gives a negative state that Python sees as a large number [`C71_illegal_state`]; the size reported by the C
  interface wraps at 2^32, which `C71_size` excludes by a hypothesis.
* **C72** `SimpleHistogram` does not check its values: outside the range an update is undefined [`C72_update`]; the
  generator overflows for a range that ends with the largest `int32_t` [`C72_new_top`].
* **C74** Cell-based mitigation does not return to a defined state once a cell is worn out (transition time 0): if such
  a cell is in LRS, unread and outside the multiplied block, its conductance becomes `0 / 0`
  [`C74_unread_worn_cell`, `C74_false_when_worn`].  The program goes on with a NaN, which compares as inside the
  tolerance, so the cell is never refreshed.  The loader does not reject an update frequency of 0 or a read time
  of 0, which `DisturbOk` excludes.
* **C78** On inputs that do not fit `I_BIT` the digital and the analog path disagree, except in `I_TC_W_DIFF`
  [`C78_false`, `C78_read_partial`]; `I_UINT_W_OFFS` subtracts the offsets of input bits it never applied
  [`C78_read_offset_partial`].
* **C79** `update_cfg` skips values that compare equal to the old ones, and `json::operator==` converts the
  unsigned value when it compares it with a negative one.  Updating `V_read` from -1 to 18446744073709551615 is
  reported as successful and ignored, although the new value would be refused by `apply_config`
  (`C79_false`); the claim holds when no comparison needs a narrowing conversion (`C79_takes_effect_partial`).
* **C80** `SPLIT` is not compared with `W_BIT`.  With fewer bits the weights silently lose their lowest bits
  (`C80_false`, `C80_short_partial`); with more bits the shift of some slice wraps to almost `2^32` and every write
  shifts by 32 or more, which is undefined (`C80_long`).
* **C81** Acceptance of a document (C77) is not enough for a crossbar: resolutions of 31 bits and more, slices of 31
  bits and more, slices that exceed the word in I_UINT_W_OFFS are undefined in the constructors, and parasitics with
  I_TC_W_DIFF throw (`C81_not_all`, `C81_throws`).  The first can also come from an earlier configuration, because
  digital and ideal configurations keep the resolution of the one before.
* **C82** An update to I_TC_W_DIFF with parasitics throws after the configuration has been replaced and before the
  crossbar is: the process goes on with a crossbar of another mapping (`C82_exception`).
* **C83** Integer mappings accept `c2c_var` without `d2d_var`, but their writes never set the original currents, so each
  multiplication replaces the currents of its first `m` cell rows by HRS, even with noise zero (`C83_int_erases`,
  `C83_false_int`), and exits if one of these cells is in a state above 1 (`C83_int_exits`).
* **C84** `d2d_var` is never read outside the configuration: programming always adds noise (`C84_ignored`, `C84_false`).
* **C85** The shipped analog files of the integer mappings are not exact for wide matrices, although the tests assert
  equality (on a 3 x 2 matrix): the converter step of 1600/(2^20-2) is half a unit of the most significant slice and
  bit.  32 weights of 64 times -128 give -262143, with offset inputs 32 weights of 64 times 0 give -1.  TNN_IV and TNN_V
  leave the range of the converter: one product 1·1 gives 0 in TNN_V, four give 3 in TNN_IV (`C85_exact_iff`).
  Their error is at most 2.4 n + 2.1 and 0.6 n + 2.1 for n columns (`C88_shipped`).
  `digital/TNN_V_split.json` names the mapping TNN_IV; `config.json` has `NOISE` where the code wants `HRS_NOISE` and
  `LRS_NOISE`, and ends the program (`C85_config_json`).
* **C92** The assertion of `adc_test.py` is not true of `I_UINT_W_OFFS` in general: with `HRS = 1`, `LRS = 3`, two weight bits and
  a converter of one bit the product of `-1` and `1` gives `2`, and the assertion allows at most `1`.  The conductances
  of the test files hide this, because their `HRS` is a whole number of units (51) [`C92_offset_unit`].
* **C94** `VarTest` asserts the order of the currents of a pair for Gaussian samples of any size. It holds if
  no sample reaches half the distance of the states, and can fail otherwise (`C94_signs_false`). `ia_p` need not change
  with `HRS`: not if all cells are in their highest state (`C94_hrs_false`).
* **C95** The tests of the wires find exact results with 1 Ohm for binary and ternary mappings. That holds for all
  matrices with up to 9 columns (4 for BNN_III and BNN_IV); with 16 columns it is false (`C95_false`).
* **C96** `CFG_FILE` set to the empty string ends the program when the library is loaded, because only a null pointer
  counts as "no name" (`C96_empty`).  `set_config("")` without `CFG_FILE` in a new process makes a crossbar without rows
  and columns (`C96_void`).
* **C97** Misspelt keys, arrays and plain values are accepted as updates without a message (`C97_unknown`, `C97_plain`).
* **C103** `exe_mvm_pb` and `cpy_mtrx_pb` use the address of an array and ignore its strides.  A transposed `int32` matrix
  is stored untransposed (`C103_false_matrix`), a slice `[::2]` is read as consecutive elements (`C103_false_vector`).  The
  result for an array that is not `int32` is lost (`C103_false_type`).
* **C53** Verbose release of a binary or ternary crossbar calls `exit` [`C53_false`].

Seen while reading, not stated as properties:
HRS = LRS and resolution 1 divide by zero;
`M = -1` wraps; `I_BIT` = 32 overflows in `I_OFFS_W_DIFF`; a partial write restarts the read counter of the whole
crossbar; refreshing erases device variation of LRS cells; wrong-typed optional keys silently become defaults;
histograms survive configuration changes and always use the MAX range; an update of the noise parameters keeps the
crossbar, so its cells keep their old variation; loading a file with `resolution` = -1 twice is not idempotent.

## 6. Tests of the theorems

`seeded/LOG.jsonl` lists wrong programs (one edit of a model definition each), the claim it breaks and the theorems
whose proofs fail.  `failed` holds the theorems that do not go through with the edited definition: their own proof or the proof
of a lemma they use fails.  A failed proof does not by itself show that the theorem is false for the wrong program; the
examples and witnesses that evaluate the model do.  Runs stop at the first modules that fail, so the lists can be longer or
shorter than the set of theorems that are really false.  Where no theorem failed, `tightened` names the theorems that were added: `C59_all_layers`,
`C63_configuration_keeps`, `C71_no_size`, `C71_refreshes`, C73, C75, C76, C79 and `C96_text`.
