{"id": "C01", "title": "Digital integer MVM is exact in every INT mapping mode", "statement": "With digital_only=true and any of the six INT mapping modes, writing an in-range integer matrix W with cpy_mtrx and then calling exe_mvm with an in-range vector x leaves res[m] + sum_n W[m][n]*x[n] in the result buffer, for every weight split whose widths add up to W_BIT, whatever the crossbar did before.", "quantifier": "for all INT modes, all M,N, all sub-matrix sizes, all W_BIT/I_BIT/SPLIT with sum SPLIT = W_BIT, all in-range W and x, all initial result buffers, all earlier crossbar contents", "why_tests_cant": "the claim ranges over all splits, widths, matrices and vectors; tests check a handful of 3x2 products", "anchors": ["cpp/src/mapping/int_mapper/int_i.cpp:d_write,d_mvm", "cpp/src/mapping/int_mapper/int_ii.cpp:d_write,d_mvm", "cpp/src/mapping/int_mapper/int_iii.cpp:d_write,d_mvm", "cpp/src/mapping/int_mapper/int_iv.cpp:d_write,d_mvm", "cpp/src/mapping/int_mapper/int_v.cpp:d_write,d_mvm", "cpp/src/mapping/mapper.cpp:Mapper::Mapper,d_write_diff,d_write_offs"]}
{"id": "C02", "title": "Digital binary MVM is exact in every BNN mapping mode", "statement": "With digital_only=true and BNN_I..BNN_VI, writing a +1/-1 matrix and multiplying with a +1/-1 vector of the written width leaves res[m] + sum_n W[m][n]*x[n] in the result buffer.", "quantifier": "for all six BNN modes, all sizes, all +1/-1 matrices and vectors, all result buffers, all earlier contents", "why_tests_cant": "exponentially many matrices/vectors; tests use one 3x2 matrix", "anchors": ["cpp/src/mapping/bnn_mapper/bnn_i.cpp:d_write,d_mvm", "cpp/src/mapping/bnn_mapper/bnn_ii.cpp:d_write,d_mvm", "cpp/src/mapping/bnn_mapper/bnn_iii.cpp:d_write,d_mvm", "cpp/src/mapping/bnn_mapper/bnn_iv.cpp:d_write,d_mvm", "cpp/src/mapping/bnn_mapper/bnn_v.cpp:d_write,d_mvm", "cpp/src/mapping/bnn_mapper/bnn_vi.cpp:d_write,d_mvm", "cpp/src/mapping/mapper.cpp:d_write_diff_bnn"]}
{"id": "C03", "title": "Digital ternary MVM is exact in every TNN mapping mode", "statement": "With digital_only=true and TNN_I..TNN_V, writing a matrix over {-1,0,1} and multiplying with a vector over {-1,0,1} of the written width leaves res[m] + sum_n W[m][n]*x[n] in the result buffer.", "quantifier": "for all five TNN modes, all sizes, all ternary matrices and vectors, all result buffers, all earlier contents", "why_tests_cant": "exponentially many matrices/vectors; tests use one 3x3 matrix", "anchors": ["cpp/src/mapping/tnn_mapper/tnn_i.cpp:d_write,d_mvm", "cpp/src/mapping/tnn_mapper/tnn_ii.cpp:d_write,d_mvm", "cpp/src/mapping/tnn_mapper/tnn_iii.cpp:d_write,d_mvm", "cpp/src/mapping/tnn_mapper/tnn_iv.cpp:d_write,d_mvm", "cpp/src/mapping/tnn_mapper/tnn_v.cpp:d_write,d_mvm", "cpp/src/mapping/mapper.cpp:d_write_diff_tnn,d_write_tc_tnn"]}
{"id": "C04", "title": "An MVM accumulates into the result and touches nothing else the user can see", "statement": "exe_mvm only adds to the first m_matrix entries of the result buffer; later entries, the programmed cell states and the stored currents are unchanged (digital mode, or analog mode without read disturb and c2c variability).", "quantifier": "for all modes, sizes, inputs, states", "why_tests_cant": "frame conditions quantify over all memory the call does not mention", "anchors": ["cpp/src/xbar/crossbar.cpp:Crossbar::mvm", "cpp/src/mapping/int_mapper/int_i.cpp:d_mvm,a_mvm", "cpp/src/mapping/int_mapper/int_ii.cpp:d_mvm,a_mvm", "cpp/src/mapping/int_mapper/int_iii.cpp:d_mvm,a_mvm", "cpp/src/mapping/int_mapper/int_iv.cpp:d_mvm,a_mvm", "cpp/src/mapping/int_mapper/int_v.cpp:d_mvm,a_mvm", "cpp/src/mapping/bnn_mapper/bnn_i.cpp:d_mvm,a_mvm", "cpp/src/mapping/bnn_mapper/bnn_ii.cpp:d_mvm,a_mvm", "cpp/src/mapping/bnn_mapper/bnn_iii.cpp:d_mvm,a_mvm", "cpp/src/mapping/bnn_mapper/bnn_iv.cpp:d_mvm,a_mvm", "cpp/src/mapping/bnn_mapper/bnn_v.cpp:d_mvm,a_mvm", "cpp/src/mapping/bnn_mapper/bnn_vi.cpp:d_mvm,a_mvm", "cpp/src/mapping/tnn_mapper/tnn_i.cpp:d_mvm,a_mvm", "cpp/src/mapping/tnn_mapper/tnn_ii.cpp:d_mvm,a_mvm", "cpp/src/mapping/tnn_mapper/tnn_iii.cpp:d_mvm,a_mvm", "cpp/src/mapping/tnn_mapper/tnn_iv.cpp:d_mvm,a_mvm", "cpp/src/mapping/tnn_mapper/tnn_v.cpp:d_mvm,a_mvm"]}
{"id": "C05", "title": "Programmed matrix is exactly the overlay of the writes, last writer wins", "statement": "After any sequence of cpy_mtrx and exe_mvm calls, the cell states returned by the gd_p/gd_m getters are, cell by cell, the encoding of the value given by the last write that covered that cell, and the initial zero if none did.", "quantifier": "for all modes and all finite call sequences with arbitrary sub-matrix sizes", "why_tests_cant": "quantifies over unbounded call histories with overlapping sub-matrices", "anchors": ["cpp/src/mapping/mapper.cpp:d_write_diff,d_write_diff_bnn,d_write_diff_tnn,d_write_offs,d_write_tc_tnn", "cpp/src/xbar/crossbar.cpp:Crossbar::write"]}
{"id": "C06", "title": "Digital crossbar refines an abstract matrix store", "statement": "For any finite sequence of full-width writes and multiplications in digital mode, the results are those of an abstract machine that remembers one integer matrix and answers each multiplication with the exact product; no earlier input, result or scratch data leaks into a later result.", "quantifier": "for all modes, all finite sequences of writes and MVMs", "why_tests_cant": "history independence is about all call sequences; the mappers keep scratch buffers that survive calls", "anchors": ["cpp/src/xbar/crossbar.cpp:Crossbar::write,Crossbar::mvm", "cpp/src/mapping/int_mapper/int_i.cpp:d_mvm", "cpp/src/mapping/int_mapper/int_ii.cpp:d_mvm", "cpp/src/mapping/int_mapper/int_iii.cpp:d_mvm", "cpp/src/mapping/int_mapper/int_iv.cpp:d_mvm", "cpp/src/mapping/int_mapper/int_v.cpp:d_mvm", "cpp/src/mapping/bnn_mapper/bnn_i.cpp:d_mvm", "cpp/src/mapping/bnn_mapper/bnn_ii.cpp:d_mvm", "cpp/src/mapping/bnn_mapper/bnn_iii.cpp:d_mvm", "cpp/src/mapping/bnn_mapper/bnn_iv.cpp:d_mvm", "cpp/src/mapping/bnn_mapper/bnn_v.cpp:d_mvm", "cpp/src/mapping/bnn_mapper/bnn_vi.cpp:d_mvm", "cpp/src/mapping/tnn_mapper/tnn_i.cpp:d_mvm", "cpp/src/mapping/tnn_mapper/tnn_ii.cpp:d_mvm", "cpp/src/mapping/tnn_mapper/tnn_iii.cpp:d_mvm", "cpp/src/mapping/tnn_mapper/tnn_iv.cpp:d_mvm", "cpp/src/mapping/tnn_mapper/tnn_v.cpp:d_mvm"]}
{"id": "C07", "title": "The weights used are the programmed ones", "statement": "exe_mvm ignores the matrix argument it is given: two calls that differ only in that argument have identical results and effects.", "quantifier": "for all modes (digital and analog), states, inputs and pairs of matrix arguments", "why_tests_cant": "non-interference over all pairs of buffers", "anchors": ["cpp/src/xbar/crossbar.cpp:Crossbar::mvm", "cpp/src/interface_pybind.cpp:exe_mvm"]}
{"id": "C08", "title": "Multiplying a leading sub-block of the written matrix", "statement": "After writing an m x n matrix, an MVM with m' <= m rows and n' <= n columns yields the exact product with the leading m' x n' block.", "quantifier": "for all modes and all sizes m'<=m, n'<=n", "why_tests_cant": "two-parameter family of sizes in every mode; tests always multiply with the written size", "anchors": ["cpp/src/mapping/int_mapper/int_i.cpp:d_mvm", "cpp/src/mapping/int_mapper/int_ii.cpp:d_mvm", "cpp/src/mapping/int_mapper/int_iii.cpp:d_mvm", "cpp/src/mapping/int_mapper/int_iv.cpp:d_mvm", "cpp/src/mapping/int_mapper/int_v.cpp:d_mvm", "cpp/src/mapping/bnn_mapper/bnn_i.cpp:d_mvm", "cpp/src/mapping/bnn_mapper/bnn_ii.cpp:d_mvm", "cpp/src/mapping/bnn_mapper/bnn_iii.cpp:d_mvm", "cpp/src/mapping/bnn_mapper/bnn_iv.cpp:d_mvm", "cpp/src/mapping/bnn_mapper/bnn_v.cpp:d_mvm", "cpp/src/mapping/bnn_mapper/bnn_vi.cpp:d_mvm", "cpp/src/mapping/tnn_mapper/tnn_i.cpp:d_mvm", "cpp/src/mapping/tnn_mapper/tnn_ii.cpp:d_mvm", "cpp/src/mapping/tnn_mapper/tnn_iii.cpp:d_mvm", "cpp/src/mapping/tnn_mapper/tnn_iv.cpp:d_mvm", "cpp/src/mapping/tnn_mapper/tnn_v.cpp:d_mvm", "cpp/inc/mapping/mapper.h:sum_w_"]}
{"id": "C09", "title": "Calls the crossbar cannot serve are rejected without effect", "statement": "cpy_mtrx and exe_mvm return -1 and change nothing when no configuration is loaded, when a dimension exceeds the crossbar, or when a dimension is negative; every entry point offers this protection.", "quantifier": "for all entry points, all states, all dimension arguments including negative ones", "why_tests_cant": "all int32 dimension pairs; the guard mixes signed and unsigned comparison", "anchors": ["cpp/src/interface_pybind.cpp:exe_mvm,cpy_mtrx,exe_mvm_pb,cpy_mtrx_pb"]}
{"id": "C10", "title": "Accepted calls are free of undefined behaviour", "statement": "In any reachable state (parasitics off) a write or MVM whose dimensions were accepted, whose buffers have the stated length and whose values are in range performs no out-of-bounds access, no signed overflow and no invalid shift.", "quantifier": "for all modes, digital and ideal analog, all histories, all in-range buffers", "why_tests_cant": "absence of undefined behaviour for every input cannot be observed by running some inputs", "anchors": ["cpp/src/xbar/crossbar.cpp:write,mvm", "cpp/src/mapping/mapper.cpp", "cpp/src/mapping/int_mapper/int_i.cpp:d_write,d_mvm,a_mvm", "cpp/src/mapping/int_mapper/int_ii.cpp:d_write,d_mvm,a_mvm", "cpp/src/mapping/int_mapper/int_iii.cpp:d_write,d_mvm,a_mvm", "cpp/src/mapping/int_mapper/int_iv.cpp:d_write,d_mvm,a_mvm", "cpp/src/mapping/int_mapper/int_v.cpp:d_write,d_mvm,a_mvm", "cpp/src/mapping/bnn_mapper/bnn_i.cpp:d_write,d_mvm,a_mvm", "cpp/src/mapping/bnn_mapper/bnn_ii.cpp:d_write,d_mvm,a_mvm", "cpp/src/mapping/bnn_mapper/bnn_iii.cpp:d_write,d_mvm,a_mvm", "cpp/src/mapping/bnn_mapper/bnn_iv.cpp:d_write,d_mvm,a_mvm", "cpp/src/mapping/bnn_mapper/bnn_v.cpp:d_write,d_mvm,a_mvm", "cpp/src/mapping/bnn_mapper/bnn_vi.cpp:d_write,d_mvm,a_mvm", "cpp/src/mapping/tnn_mapper/tnn_i.cpp:d_write,d_mvm,a_mvm", "cpp/src/mapping/tnn_mapper/tnn_ii.cpp:d_write,d_mvm,a_mvm", "cpp/src/mapping/tnn_mapper/tnn_iii.cpp:d_write,d_mvm,a_mvm", "cpp/src/mapping/tnn_mapper/tnn_iv.cpp:d_write,d_mvm,a_mvm", "cpp/src/mapping/tnn_mapper/tnn_v.cpp:d_write,d_mvm,a_mvm"]}
{"id": "C11", "title": "Values outside the alphabet of a BNN/TNN mode are rejected", "statement": "In a BNN (TNN) mode a weight or input other than +1/-1 (-1,0,1) makes the call abort instead of producing a number.", "quantifier": "for all BNN and TNN modes, all matrices/vectors with at least one invalid entry at any position", "why_tests_cant": "all positions and all invalid values, in eleven modes", "anchors": ["cpp/src/mapping/bnn_mapper/bnn_i.cpp:d_write,d_mvm,a_mvm", "cpp/src/mapping/bnn_mapper/bnn_ii.cpp:d_write,d_mvm,a_mvm", "cpp/src/mapping/bnn_mapper/bnn_iii.cpp:d_write,d_mvm,a_mvm", "cpp/src/mapping/bnn_mapper/bnn_iv.cpp:d_write,d_mvm,a_mvm", "cpp/src/mapping/bnn_mapper/bnn_v.cpp:d_write,d_mvm,a_mvm", "cpp/src/mapping/bnn_mapper/bnn_vi.cpp:d_write,d_mvm,a_mvm", "cpp/src/mapping/tnn_mapper/tnn_i.cpp:d_write,d_mvm,a_mvm", "cpp/src/mapping/tnn_mapper/tnn_ii.cpp:d_write,d_mvm,a_mvm", "cpp/src/mapping/tnn_mapper/tnn_iii.cpp:d_write,d_mvm,a_mvm", "cpp/src/mapping/tnn_mapper/tnn_iv.cpp:d_write,d_mvm,a_mvm", "cpp/src/mapping/tnn_mapper/tnn_v.cpp:d_write,d_mvm,a_mvm", "cpp/src/mapping/mapper.cpp:d_write_diff_bnn,d_write_diff_tnn"]}
{"id": "C12", "title": "Weight slicing is lossless and uses only legal cell states", "statement": "After writing weight w in an INT mode, the cell states of its segments satisfy 0 <= g < 2^SPLIT[s], plus and minus cells are never both non-zero, and recombining them with the configured shifts gives back w (w + 2^(W_BIT-1) for offset encoding).", "quantifier": "for all W_BIT, SPLIT with sum W_BIT, all in-range weights", "why_tests_cant": "all widths and splits; tests use one or two splits", "anchors": ["cpp/src/mapping/mapper.cpp:Mapper::Mapper,d_write_diff,d_write_offs"]}
{"id": "C13", "title": "Results do not depend on the mapping mode", "statement": "Two crossbars configured with different mapping modes, fed the same legal matrix and vector, return the same digital result.", "quantifier": "for all pairs of modes whose alphabets contain the data, all matrices, vectors", "why_tests_cant": "relational property over pairs of configurations", "anchors": ["cpp/src/mapping/int_mapper/int_i.cpp:d_mvm", "cpp/src/mapping/int_mapper/int_ii.cpp:d_mvm", "cpp/src/mapping/int_mapper/int_iii.cpp:d_mvm", "cpp/src/mapping/int_mapper/int_iv.cpp:d_mvm", "cpp/src/mapping/int_mapper/int_v.cpp:d_mvm", "cpp/src/mapping/bnn_mapper/bnn_i.cpp:d_mvm", "cpp/src/mapping/bnn_mapper/bnn_ii.cpp:d_mvm", "cpp/src/mapping/bnn_mapper/bnn_iii.cpp:d_mvm", "cpp/src/mapping/bnn_mapper/bnn_iv.cpp:d_mvm", "cpp/src/mapping/bnn_mapper/bnn_v.cpp:d_mvm", "cpp/src/mapping/bnn_mapper/bnn_vi.cpp:d_mvm", "cpp/src/mapping/tnn_mapper/tnn_i.cpp:d_mvm", "cpp/src/mapping/tnn_mapper/tnn_ii.cpp:d_mvm", "cpp/src/mapping/tnn_mapper/tnn_iii.cpp:d_mvm", "cpp/src/mapping/tnn_mapper/tnn_iv.cpp:d_mvm", "cpp/src/mapping/tnn_mapper/tnn_v.cpp:d_mvm"]}
{"id": "C14", "title": "Out-of-range INT weights and inputs", "statement": "A weight or input that does not fit W_BIT/I_BIT is either reported or handled as documented; in particular the MVM never returns a wrong product silently.", "quantifier": "for all INT modes, all int32 weights", "why_tests_cant": "all 2^32 weights times all widths", "anchors": ["cpp/src/mapping/mapper.cpp:d_write_diff,d_write_offs"]}
{"id": "C15", "title": "Programmed cell currents stay between HRS and LRS and are affine in the cell state", "statement": "Without noise and disturb, each cell current equals HRS + state * (LRS-HRS)/(number of states - 1), hence lies in [HRS, LRS], with state 0 at HRS and the top state at LRS.", "quantifier": "for all modes, splits, HRS<=LRS, matrices, write histories", "why_tests_cant": "all splits, device parameters and weights", "anchors": ["cpp/src/mapping/mapper.cpp:a_write_p_m,a_write_p,a_write_p_m_bnn_tnn,a_write_p_bnn"]}
{"id": "C16", "title": "Variability never makes a current negative and affects only its own cell", "statement": "With any noise samples each programmed current is max(0, nominal + sample) of a two-level cell (all currents stay >= 0), zero noise gives the nominal current, and cells outside the written block keep their current.", "quantifier": "for all noise sample streams, BNN/TNN modes, sizes", "why_tests_cant": "noise is random; the claim is for every sample sequence", "anchors": ["cpp/src/mapping/mapper.cpp:add_gaussian_noise,a_write_p_m_bnn_tnn,a_write_p_bnn"]}
{"id": "C17", "title": "Ideal analog INT MVM equals the exact product", "statement": "With INF_ADC, no parasitics and exact arithmetic, exe_mvm in analog INT modes returns res[m] + sum_n W[m][n]*x[n], like the digital path.", "quantifier": "for all INT modes, splits, widths, HRS != LRS, matrices, vectors", "why_tests_cant": "all sizes, widths and device parameters", "anchors": ["cpp/src/mapping/int_mapper/int_i.cpp:a_write,a_mvm", "cpp/src/mapping/int_mapper/int_ii.cpp:a_write,a_mvm", "cpp/src/mapping/int_mapper/int_iii.cpp:a_write,a_mvm", "cpp/src/mapping/int_mapper/int_iv.cpp:a_write,a_mvm", "cpp/src/mapping/int_mapper/int_v.cpp:a_write,a_mvm", "cpp/src/xbar/adc.cpp:ADCInfinite::convert"]}
{"id": "C18", "title": "Ideal analog BNN MVM equals the exact product", "statement": "With INF_ADC, no noise, disturb or parasitics and exact arithmetic, exe_mvm in analog BNN modes returns res[m] + sum_n W[m][n]*x[n].", "quantifier": "for all BNN modes, HRS != LRS, sizes, matrices, vectors", "why_tests_cant": "exponentially many inputs and all device parameters", "anchors": ["cpp/src/mapping/bnn_mapper/bnn_i.cpp:a_write,a_mvm", "cpp/src/mapping/bnn_mapper/bnn_ii.cpp:a_write,a_mvm", "cpp/src/mapping/bnn_mapper/bnn_iii.cpp:a_write,a_mvm", "cpp/src/mapping/bnn_mapper/bnn_iv.cpp:a_write,a_mvm", "cpp/src/mapping/bnn_mapper/bnn_v.cpp:a_write,a_mvm", "cpp/src/mapping/bnn_mapper/bnn_vi.cpp:a_write,a_mvm"]}
{"id": "C19", "title": "Ideal analog TNN MVM equals the exact product", "statement": "With INF_ADC, no noise, disturb or parasitics and exact arithmetic, exe_mvm in analog TNN modes returns res[m] + sum_n W[m][n]*x[n].", "quantifier": "for all TNN modes, HRS != LRS, sizes, matrices, vectors", "why_tests_cant": "exponentially many inputs and all device parameters", "anchors": ["cpp/src/mapping/tnn_mapper/tnn_i.cpp:a_write,a_mvm", "cpp/src/mapping/tnn_mapper/tnn_ii.cpp:a_write,a_mvm", "cpp/src/mapping/tnn_mapper/tnn_iii.cpp:a_write,a_mvm", "cpp/src/mapping/tnn_mapper/tnn_iv.cpp:a_write,a_mvm", "cpp/src/mapping/tnn_mapper/tnn_v.cpp:a_write,a_mvm"]}
{"id": "C20", "title": "Ideal analog results survive single-precision arithmetic", "statement": "The INF_ADC analog result computed in IEEE binary32 as in the code equals the exact product.", "quantifier": "for all device parameters and all inputs", "why_tests_cant": "rounding makes the claim depend on the bit patterns of HRS, LRS; no finite test set covers them", "anchors": ["cpp/src/xbar/adc.cpp:ADCInfinite::convert", "cpp/src/mapping/bnn_mapper/bnn_i.cpp:a_mvm", "cpp/src/mapping/bnn_mapper/bnn_ii.cpp:a_mvm", "cpp/src/mapping/bnn_mapper/bnn_iii.cpp:a_mvm", "cpp/src/mapping/bnn_mapper/bnn_iv.cpp:a_mvm", "cpp/src/mapping/bnn_mapper/bnn_v.cpp:a_mvm", "cpp/src/mapping/bnn_mapper/bnn_vi.cpp:a_mvm"]}
{"id": "C21", "title": "ADC transfer curve is monotone", "statement": "For a fixed ADC type, resolution, range and positive scale, a larger input current never yields a smaller output.", "quantifier": "for all pairs of currents, all resolutions, ranges, offsets, scales >= 0; also under any monotone rounding of the arithmetic", "why_tests_cant": "relation over all pairs of real inputs", "anchors": ["cpp/src/xbar/adc.cpp:ADCUnsigned::convert,ADCInfinite::convert"]}
{"id": "C22", "title": "ADC saturates at its range and never leaves it", "statement": "SYM/POS ADC output always lies between the images of the range limits, and every current beyond a limit gives the same output as the limit.", "quantifier": "for all currents, resolutions, ranges, scales", "why_tests_cant": "all reals", "anchors": ["cpp/src/xbar/adc.cpp:ADC::clip,ADCUnsigned::convert"]}
{"id": "C23", "title": "ADC quantisation error is at most half a step", "statement": "Inside its range the ADC output differs from scale*(current+offset) by at most scale*step/2 + 1/2 where step = range/(levels-1) (the 1/2 is the final integer rounding).", "quantifier": "for all in-range currents, resolutions, ranges, scales", "why_tests_cant": "all reals and resolutions", "anchors": ["cpp/src/xbar/adc.cpp:ADCUnsigned::convert"]}
{"id": "C24", "title": "Signed ADC reads zero current as exactly zero", "statement": "With SYM_RANGE_ADC in MAX calibration, zero current is converted to 0 at every resolution.", "quantifier": "for all resolutions >= 2, N, HRS, LRS, scales", "why_tests_cant": "all resolutions and device parameters", "anchors": ["cpp/src/xbar/adc.cpp:ADCSigned::ADCSigned"]}
{"id": "C25", "title": "ADC produces at most 2^resolution codes", "statement": "The set of outputs of a POS ADC (SYM ADC) over all currents has at most 2^resolution (2^resolution - 1) elements.", "quantifier": "for all resolutions, ranges, scales, over all real currents", "why_tests_cant": "cardinality of the image of an infinite set", "anchors": ["cpp/src/xbar/adc.cpp:ADCUnsigned::convert,ADCSigned::ADCSigned"]}
{"id": "C26", "title": "With enough ADC resolution analog inference is exact", "statement": "With a real ADC in MAX mode (no noise, disturb, parasitics, exact arithmetic) the MVM result differs from the exact product by at most the number of conversions times (half a step scaled + 1/2), and is exact once the scaled half step is below 1/2.", "quantifier": "for all sizes, matrices, vectors, resolutions, device parameters", "why_tests_cant": "worst case over all inputs", "anchors": ["cpp/src/xbar/adc.cpp:ADCUnsigned::convert", "cpp/src/mapping/bnn_mapper/bnn_i.cpp:a_mvm", "cpp/src/mapping/bnn_mapper/bnn_ii.cpp:a_mvm", "cpp/src/mapping/bnn_mapper/bnn_iii.cpp:a_mvm", "cpp/src/mapping/bnn_mapper/bnn_iv.cpp:a_mvm", "cpp/src/mapping/bnn_mapper/bnn_v.cpp:a_mvm", "cpp/src/mapping/bnn_mapper/bnn_vi.cpp:a_mvm", "cpp/src/mapping/tnn_mapper/tnn_i.cpp:a_mvm", "cpp/src/mapping/tnn_mapper/tnn_ii.cpp:a_mvm", "cpp/src/mapping/tnn_mapper/tnn_iii.cpp:a_mvm", "cpp/src/mapping/tnn_mapper/tnn_iv.cpp:a_mvm", "cpp/src/mapping/tnn_mapper/tnn_v.cpp:a_mvm", "cpp/src/mapping/int_mapper/int_i.cpp:a_mvm", "cpp/src/mapping/int_mapper/int_ii.cpp:a_mvm", "cpp/src/mapping/int_mapper/int_iii.cpp:a_mvm", "cpp/src/mapping/int_mapper/int_iv.cpp:a_mvm", "cpp/src/mapping/int_mapper/int_v.cpp:a_mvm"]}
{"id": "C27", "title": "MAX calibration never clips a legal column current", "statement": "In MAX calibration mode every noise-free column current (including the offset the mapping adds) lies inside the ADC range.", "quantifier": "for all modes, sizes, matrices, vectors, 0 <= HRS <= LRS", "why_tests_cant": "extreme currents depend on all inputs at once", "anchors": ["cpp/src/xbar/adc.cpp:maximum_max_current,maximum_min_current,get_currents", "cpp/src/mapping/bnn_mapper/bnn_i.cpp:a_mvm", "cpp/src/mapping/bnn_mapper/bnn_ii.cpp:a_mvm", "cpp/src/mapping/bnn_mapper/bnn_iii.cpp:a_mvm", "cpp/src/mapping/bnn_mapper/bnn_iv.cpp:a_mvm", "cpp/src/mapping/bnn_mapper/bnn_v.cpp:a_mvm", "cpp/src/mapping/bnn_mapper/bnn_vi.cpp:a_mvm", "cpp/src/mapping/tnn_mapper/tnn_i.cpp:a_mvm", "cpp/src/mapping/tnn_mapper/tnn_ii.cpp:a_mvm", "cpp/src/mapping/tnn_mapper/tnn_iii.cpp:a_mvm", "cpp/src/mapping/tnn_mapper/tnn_iv.cpp:a_mvm", "cpp/src/mapping/tnn_mapper/tnn_v.cpp:a_mvm"]}
{"id": "C28", "title": "CALIB mode uses the calibrated range of the named layer or stops", "statement": "In CALIB mode an MVM for layer l clips to the interval stored for l; a layer without calibration data terminates the program instead of returning a number.", "quantifier": "for all layers, dictionaries, currents", "why_tests_cant": "all dictionaries and layer names", "anchors": ["cpp/src/xbar/adc.cpp:ADC::get_currents"]}
{"id": "C29", "title": "Only meaningful ADC/mapping combinations are ever simulated", "statement": "After any accepted load or update in analog mode, the mode is a signed-current mode with SYM_RANGE_ADC, a positive-current mode with POS_RANGE_ONLY_ADC, or the ADC is INF_ADC.", "quantifier": "for all JSON configurations and all update histories", "why_tests_cant": "all configuration documents", "anchors": ["cpp/src/helper/config.cpp:Config::apply_config,Config::update_cfg"]}
{"id": "C30", "title": "Operation counters count", "statement": "After any history the crossbar's write, MVM and read counters equal the number of accepted cpy_mtrx calls, exe_mvm calls and (analog) reads since the crossbar was created, saturating nowhere below 2^64.", "quantifier": "for all call histories", "why_tests_cant": "unbounded histories", "anchors": ["cpp/src/xbar/crossbar.cpp:Crossbar::write,Crossbar::mvm"]}
{"id": "C31", "title": "Switching cycle counters count LRS-to-HRS transitions", "statement": "With read disturb enabled, each cell's cycle counter equals the number of writes that switched this cell from LRS to HRS (plus refreshes of the cell), for any history.", "quantifier": "for all histories of writes and MVMs, all cells", "why_tests_cant": "unbounded histories, all cells", "anchors": ["cpp/src/xbar/crossbar.cpp:Crossbar::write", "cpp/src/xbar/read_disturb.cpp:update_cycles"]}
{"id": "C32", "title": "Read-disturb factor is a monotone attenuation", "statement": "The factor by which read stress scales a cell's conductance lies in [0,1] and does not increase with the number of reads or the number of switching cycles.", "quantifier": "for all read counts, cycle counts, read times, read voltages in the calibrated range", "why_tests_cant": "real-analytic claim over unbounded counters", "anchors": ["cpp/src/xbar/read_disturb.cpp:calc_G0_scaling_factor,calc_transition_time"]}
{"id": "C33", "title": "Read disturb acts on LRS cells only and depends only on reads since the last refresh", "statement": "With mitigation OFF, after any number of MVMs since the last write each LRS cell's current is LRS times the factor for that many reads and HRS cells keep their programmed current; all cells used by the mapping are covered.", "quantifier": "for all modes, matrices, histories", "why_tests_cant": "unbounded histories", "anchors": ["cpp/src/mapping/mapper.cpp:rd_update_conductance"]}
{"id": "C34", "title": "Rewriting heals read disturb", "statement": "A write brings the written cells back to the freshly programmed current and restarts the read count.", "quantifier": "for all histories before the write", "why_tests_cant": "unbounded histories", "anchors": ["cpp/src/xbar/crossbar.cpp:Crossbar::write"]}
{"id": "C35", "title": "Software refresh bounds disturb", "statement": "With SOFTWARE mitigation, an MVM at which the attenuation would pass the tolerance triggers a refresh of the whole crossbar; after it the currents are freshly programmed, the read counters restart, and the refresh counter rises by one.", "quantifier": "for all histories, tolerances", "why_tests_cant": "unbounded histories", "anchors": ["cpp/src/xbar/crossbar.cpp:Crossbar::mvm", "cpp/src/mapping/mapper.cpp:rd_check_software_refresh"]}
{"id": "C36", "title": "Cell-based refresh keeps every used cell within tolerance", "statement": "With CELL_BASED mitigation, after every MVM (update_freq 1) each LRS cell of the array carries at least (1 - tolerance) of its nominal current.", "quantifier": "for all histories, cells, tolerances", "why_tests_cant": "invariant over unbounded histories", "anchors": ["cpp/src/mapping/mapper.cpp:rd_cell_based_refresh"]}
{"id": "C37", "title": "Without read disturb and c2c noise an MVM is repeatable", "statement": "If read_disturb and c2c_var are off, repeating the same MVM with the same inputs any number of times returns the same increment and leaves all currents unchanged.", "quantifier": "for all modes, repetition counts, states", "why_tests_cant": "unbounded repetition", "anchors": ["cpp/src/xbar/crossbar.cpp:Crossbar::mvm"]}
{"id": "C38", "title": "Cycle-to-cycle variation is gone after the MVM", "statement": "With c2c_var on (read disturb off), after each MVM the stored currents are again those programmed by the last write, for every noise stream.", "quantifier": "for all noise streams, BNN/TNN modes, histories", "why_tests_cant": "all noise streams", "anchors": ["cpp/src/mapping/mapper.cpp:a_add_c2c_var,a_remove_c2c_var"]}
{"id": "C39", "title": "Read disturb and c2c variation combine", "statement": "With both effects enabled the MVM sees conductances reduced by read disturb.", "quantifier": "for all histories", "why_tests_cant": "interaction of two effects over histories", "anchors": ["cpp/src/xbar/crossbar.cpp:Crossbar::mvm"]}
{"id": "C40", "title": "IR drop only attenuates", "statement": "With parasitic wire resistance each column current is between 0 and the ideal column current, and is 0 when no row is driven.", "quantifier": "for all conductance matrices, inputs, wire resistances > 0", "why_tests_cant": "all analog matrices", "anchors": ["cpp/src/xbar/parasitics.cpp:compute_currents"]}
{"id": "C41", "title": "IR drop grows with wire resistance and vanishes with it", "statement": "Column currents are antitone in the wire resistance and tend to the ideal current as it goes to 0, with an explicit error bound.", "quantifier": "for all matrices, inputs, pairs of wire resistances", "why_tests_cant": "relation over pairs of reals, limit statement", "anchors": ["cpp/src/xbar/parasitics.cpp:compute_currents"]}
{"id": "C42", "title": "The parasitic solver sees the programmed conductances", "statement": "The conductance used by the solver for each cell is the programmed current of this cell divided by |V_read|, including after read disturb and variability.", "quantifier": "for all modes, splits, matrices, histories", "why_tests_cant": "all cells in all modes and histories", "anchors": ["cpp/src/xbar/parasitics.cpp:set_conductance_matrix", "cpp/src/mapping/mapper.cpp:rd_update_conductance,a_add_c2c_var"]}
{"id": "C43", "title": "Parasitic simulation is memory safe for every accepted matrix size", "statement": "With parasitics on, any write/MVM accepted by the dimension check stays inside the solver's arrays.", "quantifier": "for all modes, M, N and accepted sizes", "why_tests_cant": "all sizes", "anchors": ["cpp/src/xbar/parasitics.cpp:w_enc_double_row,w_enc_quad,i_enc_double,o_enc_single,o_enc_double"]}
{"id": "C44", "title": "An accepted configuration satisfies its documented constraints", "statement": "If set_config/update_config returns, then M,N > 0, analog configurations have V_read < 0 where needed, resolution > 0 for real ADCs, a valid calibration mode, and read-disturb is used with BNN/TNN modes only.", "quantifier": "for all JSON documents", "why_tests_cant": "all configuration documents", "anchors": ["cpp/src/helper/config.cpp:Config::apply_config"]}
{"id": "C45", "title": "Updating unrelated parameters keeps the programmed matrix", "statement": "update_config rebuilds the crossbar iff the value of a structural key changes; otherwise the programmed matrix, counters and currents are kept, and an update with current values is a no-op.", "quantifier": "for all current configurations and all update documents", "why_tests_cant": "all pairs of documents", "anchors": ["cpp/src/helper/config.cpp:Config::update_cfg", "cpp/src/interface_pybind.cpp:update_config"]}
{"id": "C46", "title": "Loading a configuration forgets the previous one", "statement": "The effective parameters after set_config(file) depend only on the file.", "quantifier": "for all previously loaded configurations and all files", "why_tests_cant": "relational over histories", "anchors": ["cpp/src/helper/config.cpp:Config::apply_config"]}
{"id": "C47", "title": "The live crossbar always matches the live configuration", "statement": "In every reachable state the crossbar's arrays have the dimensions, mapping mode and slicing of the current configuration.", "quantifier": "for all sequences of set_config, update_config, cpy_mtrx, exe_mvm", "why_tests_cant": "unbounded histories including failing calls", "anchors": ["cpp/src/interface_pybind.cpp:set_config,update_config", "cpp/inc/helper/config.h:recreation_keys"]}
{"id": "C48", "title": "A changed wire resistance takes effect", "statement": "After update_config changes w_res, MVMs use the new wire resistance and the call sequence stays well defined.", "quantifier": "for all states and values", "why_tests_cant": "all states", "anchors": ["cpp/inc/helper/config.h:recreation_keys", "cpp/src/mapping/mapper.cpp:Mapper::Mapper"]}
{"id": "C49", "title": "ADC profiling loses no sample and stays in bounds", "statement": "Profiling adds exactly one count per converted value and every current the mapping can produce is counted in bounds.", "quantifier": "for all value streams within the ADC range", "why_tests_cant": "unbounded streams, boundary values", "anchors": ["cpp/src/helper/histogram.cpp:BinnedHistogram::update", "cpp/src/xbar/adc.cpp:profile_inputs"]}
{"id": "C50", "title": "A profiled value is reported in the bin that contains it", "statement": "The reported bin centre is within half a bin width of the value counted in it.", "quantifier": "for all values and bin sizes", "why_tests_cant": "all reals", "anchors": ["cpp/src/helper/histogram.cpp:BinnedHistogram"]}
{"id": "C51", "title": "Emulation library computes exactly or delegates faithfully", "statement": "Without a registered callback exe_mvm adds the exact product of the passed matrix and vector to res; with a callback it forwards exactly the arguments and does nothing else; the other calls are no-ops.", "quantifier": "for all sizes, buffers, callbacks", "why_tests_cant": "all inputs and all callback behaviours", "anchors": ["cpp/src/interface_emu.cpp:exe_mvm,cpy_mtrx,update_config"]}
{"id": "C52", "title": "Thread scheduling does not influence results", "statement": "The element-wise parallel steps (ADC conversion, input slicing) give the same result for every execution order of the elements.", "quantifier": "for all schedules (permutations and interleavings of element operations)", "why_tests_cant": "all schedules", "anchors": ["cpp/src/xbar/adc.cpp:ADC::convert", "cpp/src/mapping/mapper.cpp:slice_vd"]}
{"id": "C53", "title": "Verbose mode does not change program behaviour", "statement": "Turning verbose on never terminates the program when a crossbar is replaced or released.", "quantifier": "for all modes and states", "why_tests_cant": "all states", "anchors": ["cpp/src/xbar/crossbar.cpp:Crossbar::~Crossbar"]}
{"id": "C54", "title": "Disturb is applied exactly every read_disturb_update_freq MVMs", "statement": "Conductances only change at MVM numbers divisible by the update frequency, every accepted frequency is usable.", "quantifier": "for all frequencies, histories", "why_tests_cant": "unbounded histories", "anchors": ["cpp/src/xbar/crossbar.cpp:Crossbar::mvm", "cpp/src/helper/config.cpp:apply_config"]}
{"id": "C55", "title": "Superposition", "statement": "Digital MVM is linear in the input: res(x+y) = res(x)+res(y) starting from zero buffers, in the INT modes.", "quantifier": "for all modes, matrices, vectors x,y with x+y in range", "why_tests_cant": "relation over pairs of inputs", "anchors": ["cpp/src/mapping/int_mapper/int_i.cpp:d_mvm", "cpp/src/mapping/int_mapper/int_ii.cpp:d_mvm", "cpp/src/mapping/int_mapper/int_iii.cpp:d_mvm", "cpp/src/mapping/int_mapper/int_iv.cpp:d_mvm", "cpp/src/mapping/int_mapper/int_v.cpp:d_mvm"]}
{"id": "C56", "title": "Mode names identify modes", "statement": "Configuration strings and mapping modes correspond one to one, and every mode belongs to exactly one of the families INT, BNN, TNN.", "quantifier": "for all strings and modes", "why_tests_cant": "all strings", "anchors": ["cpp/inc/helper/definitions.h:m_mode_to_string", "cpp/src/helper/config.cpp:is_int_mapping,is_bnn_mapping,is_tnn_mapping"]}
{"id": "C57", "title": "A digital session through the interface is exact", "statement": "In digital mode a legal exe_mvm returns 0 and adds the product with the matrix written last since the crossbar was built, also across update_config calls that keep the crossbar, rejected calls, and whatever configurations were loaded before.", "quantifier": "for all call sequences through the library interface, all modes, sizes, matrices, vectors and non-structural updates", "why_tests_cant": "ranges over all interleavings of configuration updates with writes and multiplications", "anchors": ["cpp/src/interface_pybind.cpp:set_config,update_config,cpy_mtrx,exe_mvm", "cpp/src/helper/config.cpp:update_cfg"]}
{"id": "C58", "title": "A crossbar forgets what happened before it was built", "statement": "After set_config or a rebuilding update_config, and until the next update that keeps the crossbar, the crossbar is one obtained by constructing it from the current configuration and applying exactly the calls made since; loading the library with CFG_FILE equals loading the file with set_config.", "quantifier": "for all earlier sessions, configurations and call sequences", "why_tests_cant": "quantifies over all histories before the crossbar was built", "anchors": ["cpp/src/interface_pybind.cpp:set_config,update_config", "cpp/src/xbar/crossbar.cpp:Crossbar::Crossbar"]}
{"id": "C59", "title": "The profile report summarises the converter inputs", "statement": "For every stream of converter inputs the reported number of samples is the number of inputs, the reported bins list how many inputs fell into each bin, the reported mean differs from the mean of the inputs by at most one bin width, and the reported variance is the variance of the reported histogram.", "quantifier": "for all value streams, all splittings into updates, all ranges and bin sizes", "why_tests_cant": "unbounded streams of reals", "anchors": ["cpp/src/helper/histogram.cpp:BinnedHistogram::get_samples,get_mean,get_variance,to_json", "cpp/src/interface_pybind.cpp:get_adc_profile"]}
{"id": "C60", "title": "Profiling only observes", "statement": "Whenever a sequence of calls on a profiling crossbar returns, the same calls without profiling return the same results and leave the same crossbar apart from the histograms.", "quantifier": "for all configurations, call sequences and inputs", "why_tests_cant": "relation between all pairs of executions", "anchors": ["cpp/src/xbar/adc.cpp:ADC::convert,profile_inputs", "cpp/src/xbar/crossbar.cpp:Crossbar::mvm"]}
{"id": "C61", "title": "The emulation library and the simulator agree", "statement": "For a digital crossbar, exe_mvm of the simulator library and of the emulation library without a callback leave the same result buffer and return the same code, when the passed matrix is the one written last and the emulation returns.", "quantifier": "for all sessions, modes, sizes, matrices, vectors, result buffers", "why_tests_cant": "compares two programs on all inputs and histories", "anchors": ["cpp/src/interface_emu.cpp:exe_mvm", "cpp/src/interface_pybind.cpp:exe_mvm"]}
{"id": "C62", "title": "Bounded device variation gives a bounded error", "statement": "With an ideal converter, if no cell current deviates by more than eps from its nominal value, every answer of a BNN or TNN crossbar differs from the exact product by less than gain*n*eps/|LRS-HRS| plus one per truncation, where gain is 2, 3 or 4 depending on the mapping; if no noise sample exceeds eps, every legal call sequence with device-to-device noise (and, with twice the deviation, cycle-to-cycle noise) returns and obeys this bound; the gain is attained.", "quantifier": "for all configurations, sizes, matrices, vectors, noise samples and call sequences", "why_tests_cant": "all real noise streams and unbounded sizes; tests only sample a random generator", "anchors": ["cpp/src/mapping/mapper.cpp:add_gaussian_noise,a_add_c2c_var", "cpp/src/xbar/adc.cpp:ADC::convert", "cpp/src/mapping/bnn_mapper:a_mvm", "cpp/src/mapping/tnn_mapper:a_mvm"]}
{"id": "C63", "title": "The converter profile belongs to the session", "statement": "Loading or updating a configuration (also when it throws) and writing a matrix keep the converter profile, and reconfiguring does not reset the random generator; a multiplication adds to the profile of its layer exactly as many values as its mapping converts, if the configuration at that time is analog and profiles, and nothing to other layers; so after any session the count of a layer is the number of values shown to the profiler.", "quantifier": "for all sessions, any number of configurations, layers, sizes and inputs", "why_tests_cant": "ranges over all interleavings of reconfiguration and use", "anchors": ["cpp/src/interface_pybind.cpp:set_config,update_config,cpy_mtrx,exe_mvm,get_adc_profile", "cpp/inc/helper/histogram.h:ADCHistograms", "cpp/src/xbar/adc.cpp:profile_inputs"]}
{"id": "C64", "title": "Read disturb changes results by a bounded amount", "statement": "With an ideal converter and without cycle-to-cycle variation, every answer of a BNN or TNN crossbar under read disturb is within the error of cells deviating by eps, where eps is tolerance*LRS for cell-based refreshes (with any update frequency), LRS*(1 - fp^(-p)) for refreshes by the software, and LRS times the loss after all reads and writes so far without mitigation; programming noise up to eps is allowed as well.", "quantifier": "for all configurations, sizes, matrices, vectors and call sequences that return", "why_tests_cant": "invariant over unbounded histories of reads, refreshes and writes", "anchors": ["cpp/src/mapping/mapper.cpp:rd_update_conductance,rd_check_software_refresh,rd_cell_based_refresh", "cpp/src/xbar/crossbar.cpp:mvm", "cpp/src/xbar/read_disturb.cpp"]}
{"id": "C65", "title": "Rounding changes results by a bounded amount", "statement": "On a BNN or TNN crossbar with an ideal converter whose arithmetic rounds with relative error u and absolute error eta, every answer is within an explicit bound of the matrix store that adds a rounding part to the bound for deviating cells; in binary32 and without variation, an answer is off by at most one per truncation whenever 26 n^2 r + 1300 n r + 700 r + 10 A + 200 <= 2^24, with r the ratio of the largest current to |LRS-HRS| and A the largest buffer entry.", "quantifier": "for all environments with the rounding bound, configurations, states with deviating cells, sizes, matrices, vectors and call sequences", "why_tests_cant": "accumulated rounding depends on all operands and sizes, tests compare a few products", "anchors": ["cpp/src/mapping/bnn_mapper/*.cpp", "cpp/src/mapping/tnn_mapper/*.cpp", "cpp/src/xbar/adc.cpp:ADCInfinite::convert", "cpp/src/mapping/mapper.cpp:add_gaussian_noise"]}
{"id": "C66", "title": "From the configuration file to the results", "statement": "After any successful set_config, or update_config that builds a new crossbar, a sequence of cpy_mtrx and exe_mvm calls with fitting dimensions returns exactly what the crossbar session returns, with code 0 for every call, and faults exactly if it faults; hence every legal sequence is answered with the exact products on a digital or ideal analog crossbar, and within the stated bounds under device variation, under rounding and in binary32.", "quantifier": "for all environments, documents, earlier histories of the process, call sequences, matrices and vectors", "why_tests_cant": "tests run a few sequences from a few files; the statement composes the parser, the interface checks and every state of the crossbar", "anchors": ["cpp/src/interface_pybind.cpp:set_config,update_config,cpy_mtrx,exe_mvm", "cpp/src/helper/config.cpp:apply_config", "cpp/src/xbar/crossbar.cpp:write,mvm"]}
{"id": "C67", "title": "A real converter absorbs small deviations of the cells", "statement": "With a real converter whose range contains the nominal currents, if no cell of a BNN or TNN crossbar deviates by more than eps from its nominal current, every answer is off by at most the sum over its conversions of the deviation |factor/(LRS-HRS)|*(cells*eps + step/2) plus one half; if every deviation is below one half, every answer is exact, and so it is in BNN_III and BNN_IV if the deviations are too small to round the fraction that both conversions have in common differently; one half cannot be replaced by a larger number and the bound is attained; if no noise sample exceeds eps, every legal call sequence returns and obeys this, also through the interface.", "quantifier": "for all configurations, calibrations, sizes, matrices, vectors, noise samples and call sequences", "why_tests_cant": "a threshold over all real noise streams, converter ranges and sizes; tests only sample a random generator", "anchors": ["cpp/src/xbar/adc.cpp:ADCUnsigned::convert", "cpp/src/mapping/mapper.cpp:add_gaussian_noise,a_add_c2c_var", "cpp/src/mapping/bnn_mapper/*.cpp", "cpp/src/mapping/tnn_mapper/*.cpp", "cpp/src/interface_pybind.cpp:cpy_mtrx,exe_mvm"]}
{"id": "C68", "title": "Mitigated read disturb and a real converter", "statement": "With a real converter, every answer of a BNN or TNN crossbar under read disturb is within the error of cells deviating by eps as in C67, where eps is tolerance*LRS for cell-based refreshes, LRS*(1 - fp^(-p)) for refreshes by the software, and the loss so far without mitigation; so if the rounding absorbs that deviation, read disturb never changes an answer, however often the crossbar is read.", "quantifier": "for all configurations, sizes, matrices, vectors and call sequences that return", "why_tests_cant": "invariant over unbounded histories of reads, refreshes and writes", "anchors": ["cpp/src/mapping/mapper.cpp:rd_update_conductance,rd_check_software_refresh,rd_cell_based_refresh", "cpp/src/xbar/adc.cpp:ADC::convert", "cpp/src/xbar/crossbar.cpp:mvm"]}
{"id": "C69", "title": "A real converter absorbs rounding errors of binary32", "statement": "For binary and ternary mappings in rounded arithmetic with a real converter, every legal sequence of calls returns; a result deviates from buffer plus matrix-vector product by at most one half per conversion plus the scaled sum of cell deviations, column roundings, half a converter step and converter roundings; where that sum is below one half per conversion and the mapping rounds each conversion, or, in BNN_III and BNN_IV, too small to round the common fraction of both conversions differently, the result is exact. In binary32 without variation, a converter step of at most a fifth of the window and (9n^2+240n+30)rho+100mu+4 <= 2^22 suffice.", "quantifier": "for all arithmetics with relative and absolute error bounds (IEEE binary32 in particular), all configurations, calibrations, resolutions up to 24 bits, noise samples up to a bound, matrices, vectors, buffers and call sequences", "why_tests_cant": "quantifies over all operands of rounded arithmetic and all noise samples; a test sees single roundings", "anchors": ["cpp/src/xbar/adc.cpp:ADC::convert,get_currents,clip", "cpp/src/mapping/bnn_mapper/*.cpp:a_mvm", "cpp/src/mapping/tnn_mapper/*.cpp:a_mvm", "cpp/src/mapping/mapper.cpp:add_gaussian_noise", "cpp/src/interface_pybind.cpp:exe_mvm"]}
{"id": "C70", "title": "Error of the integer mappings in rounded arithmetic", "statement": "For the six integer mappings in rounded arithmetic with any converter, every legal sequence of calls returns; a result deviates from buffer plus matrix-vector product by at most the sum over input bits and weight slices of the error of the converted number (cell and column roundings, rounding of the state current and of the scale, half a converter step), plus one per truncation where an ideal converter feeds a truncated sum. If the error of every conversion (real converter) or of the whole sum (offset mapping) is below one half, the result is exact. IEEE binary32 satisfies the assumptions for windows between 2^-64 and 2^64 and weights up to 24 bits.", "quantifier": "for all arithmetics with relative and absolute error bounds (IEEE binary32 in particular), all configurations, slice splits, calibrations, resolutions, matrices, vectors, buffers and call sequences", "why_tests_cant": "quantifies over all operands of rounded arithmetic and all splits of the weights; a test sees single roundings", "anchors": ["cpp/src/mapping/int_mapper/int_i.cpp:a_write,a_mvm", "cpp/src/mapping/int_mapper/int_ii.cpp:a_mvm", "cpp/src/mapping/int_mapper/int_iii.cpp:a_mvm", "cpp/src/mapping/int_mapper/int_iv.cpp:a_mvm", "cpp/src/mapping/int_mapper/int_v.cpp:a_write,a_mvm", "cpp/src/xbar/adc.cpp:ADC::convert,get_currents,clip"]}
{"id": "C71", "title": "Reading back the state of the crossbar", "statement": "After any session with a legal configuration and legal weights, the arrays of cell states that Python sees have M*|SPLIT| rows and N columns, show for every cell the state programmed by the weight written last (0 if never written), and the written matrix can be decoded from them. The arrays of currents and of read-disturb counters show the values of all cells; without variation the currents are nominal. The operation counters count the calls served since the crossbar was built, the multiplications since the latest write or software refresh, the software refreshes and the refreshed cells, and the size reported by the C interface is the number of cells if it fits into 32 bits. Without a crossbar no getter returns, and without read disturb the getters of its counters end the program.", "quantifier": "for all 17 mappings, all configurations, splits, matrices and call sequences including configuration updates, and all initial contents of the returned arrays", "why_tests_cant": "quantifies over all histories of calls, all slice splits and all uninitialised array contents; a test reads back single matrices", "anchors": ["cpp/src/interface_pybind.cpp:num_matrix_elems,get_gd_p,get_gd_m,get_ia_p,get_ia_m,get_gd_p_pb,get_gd_m_pb,get_ia_p_pb,get_ia_m_pb,get_cycles_p_pb,get_consecutive_reads_p_pb", "cpp/src/xbar/crossbar.cpp:get_cycles_p,get_cycles_m,get_consecutive_reads_p,get_consecutive_reads_m"]}
{"id": "C72", "title": "Histogram of integers", "statement": "SimpleHistogram can be constructed for every int32 range with fewer than 2^31-1 values below the largest int32 (for a range that ends there the last increment of the generator overflows). An update is defined exactly if all values are in the range. For every stream of values, split into updates in any way, the report lists every value of the range with its number of occurrences, the number of values, and in exact arithmetic their mean and variance; in any arithmetic it does not depend on the order of the values. In single precision the mean is correctly rounded (through double) if the absolute values sum up to at most 2^24.", "quantifier": "for all ranges, all streams of values, all ways of splitting and ordering them, and (for the order) all arithmetics", "why_tests_cant": "quantifies over all streams, all partitions into updates and all permutations; tests count a few values", "anchors": ["cpp/src/helper/histogram.cpp:SimpleHistogram::SimpleHistogram,update,get_samples,get_mean,get_variance,to_json"]}
{"id": "C73", "title": "Wear of the whole crossbar", "statement": "With read disturb, after every sequence of calls the switching cycles of all cells of both arrays add up to the number of switches from LRS to HRS by writes plus the counter of refreshed cells, and that counter is the number of refreshes of cells (of the second array only in differential mappings), for every mitigation. Each multiplication adds the same amount to the counter and to the cycles, a write leaves the counter unchanged, and without mitigation, without read disturb or on the digital path it stays zero.", "quantifier": "for all mappings, configurations, mitigations, arithmetics, noise samples, matrices, vectors and call sequences that return", "why_tests_cant": "conservation law over unbounded histories of writes, reads and refreshes; tests look at single counters", "anchors": ["cpp/src/xbar/crossbar.cpp:mvm,write", "cpp/src/mapping/mapper.cpp:rd_cell_based_refresh"]}
{"id": "C74", "title": "Sessions under read disturb return", "statement": "For binary and ternary mappings with read disturb, a positive read time, a non-zero update frequency and (cell-based mitigation) at most 2^31-1 cells, every legal sequence of calls on a new crossbar returns and every result deviates from buffer plus matrix-vector product by at most the bound of C64 (ideal converter) or C68 (real converter): without mitigation, with refreshes by the software, and with cell-based refreshes if no multiplication can meet a worn-out unread LRS cell outside its block. If the converter absorbs the deviation all results are exact. Without that last condition a multiplication computes 0/0 for such a cell and the claim is false.", "quantifier": "for all configurations, mitigations, update frequencies, noise samples up to a bound, matrices, vectors, buffers and call sequences of any length", "why_tests_cant": "termination without undefined behaviour over unbounded histories; the failing case needs a cell that is worn out, which takes more than a million switching cycles in the program", "anchors": ["cpp/src/xbar/crossbar.cpp:mvm", "cpp/src/mapping/mapper.cpp:rd_update_conductance,rd_check_software_refresh,rd_cell_based_refresh", "cpp/src/xbar/read_disturb.cpp:calc_G0_scaling_factor,calc_transition_time"]}
{"id": "C75", "title": "Resistive wires and a real converter", "statement": "For binary and ternary mappings with parasitic wires and a real converter, with or without variation of the cells from cycle to cycle and without read disturb, every legal sequence of calls in which the word lines of each write fit into the crossbar and each multiplication addresses a block inside the latest write returns. A result deviates from buffer plus matrix-vector product by at most the sum over the conversions of half a converter step, the deviations of the cells, the loss on the wires, and one half for the rounding to integers. The loss of a bit line is at most N times the square of its current times the wire resistance over the read voltage. If the error of every conversion stays below one half, all results are exact, so the converter hides the wires. With larger resistances results are wrong. Cycle-to-cycle variation and read disturb add nothing to the bound: with read disturb, any mitigation and any number of reads, every sequence of such calls that returns satisfies the same bounds.", "quantifier": "for all binary and ternary mappings, crossbar sizes, wire resistances, read voltages, noise samples up to a bound, calibrations, resolutions, matrices, vectors, buffers and call sequences", "why_tests_cant": "quantifies over all resistances, all lengths of the bit lines and all noise samples; a test reduces single networks", "anchors": ["cpp/src/xbar/parasitics.cpp:set_conductance_matrix,compute_currents", "cpp/src/mapping/bnn_mapper/*.cpp:a_write,a_mvm", "cpp/src/mapping/tnn_mapper/*.cpp:a_write,a_mvm", "cpp/src/xbar/adc.cpp:ADC::convert,get_currents,clip", "cpp/src/xbar/crossbar.cpp:write,mvm"]}
{"id": "C76", "title": "The configuration holds the values of the file", "statement": "After set_config with a JSON file, every parameter that has a meaning in the resulting configuration is the value the file gives for its key: integers modulo 2^32, fractions cut off, numbers rounded to single precision, names of mappings, converters, calibrations and strategies. Missing optional parameters, and optional ones of the wrong type, have the documented defaults (calibration MAX, no profiling, bins 10, device-to-device variation, no cycle-to-cycle variation, no read disturb, update frequency 1, strategy OFF, no parasitics), and wires with zero resistance are no parasitics. In every state a program reaches without surviving an exception, the parameters are those of the current document, which includes all updates.", "quantifier": "for all documents, previous configurations and call sequences with updates", "why_tests_cant": "quantifies over all documents and all histories of loads and updates, where stale values could stay; a test loads a few files", "anchors": ["cpp/src/helper/config.cpp:getConfigValue,apply_config,update_cfg", "cpp/src/interface_pybind.cpp:set_config,update_config"]}
{"id": "C77", "title": "Which documents are accepted", "statement": "A document is accepted if and only if there are parameters it gives that satisfy the constraints (sizes and widths positive, TNN_IV and TNN_V with 2 bits and SPLIT [1,1], states positive, converter allowed for the mapping, a calibration table if asked for, not both kinds of variation for integer mappings, negative read voltage where needed, no read disturb for integer mappings, mitigation parameters in range), and, for a real converter, the resolution in use before is not -1. The last condition is void in a new process. Every other document ends the program with an error, or has a number that does not fit its type; it is never partly accepted and no exception reaches the caller.", "quantifier": "for all documents and all previous states", "why_tests_cant": "an equivalence over all documents: tests can show that some are accepted and some refused, not that the conditions are exactly these", "anchors": ["cpp/src/helper/config.cpp:getConfigValue,load_cfg,apply_config"]}
{"id": "C78", "title": "Inputs that do not fit I_BIT, digital and analog", "statement": "A multiplication of an integer crossbar gives the same result with DIGITAL_ONLY and with ideal analog cells and converter, also for inputs that do not fit I_BIT. (False; what both paths use instead is: digitally the whole number, in I_TC_W_DIFF I_BIT bits of two's complement; in the analog path the bits applied, which are I_BIT-1 bits of positive and I_BIT bits of negative inputs for I_DIFF_W_DIFF, I_BIT+1 bits of the shifted input for I_OFFS_W_DIFF, two's complement for I_TC_W_DIFF, I_BIT bits for the unsigned mappings. I_UINT_W_OFFS in addition removes the offset of the weights and the HRS currents with the sum of the whole inputs.)", "quantifier": "for all INT modes, widths, slices, matrices and all int32 inputs", "why_tests_cant": "all 2^32 inputs times all widths; the tests only use inputs that fit", "anchors": ["cpp/src/mapping/int_mapper/*.cpp:d_mvm,a_mvm"]}
{"id": "C79", "title": "Accepted updates take effect", "statement": "After an accepted update of an accepted configuration, every parameter that has a meaning is the one given by the document with the values of the update in place of the old ones, as if that document had been loaded into a new process. (False as stated: values are compared with json::operator==, for which -1 and 18446744073709551615 are equal, so the second, inadmissible as a read voltage, is accepted and ignored; it holds if compared integers fit 64 bits signed and integers compared with fractions fit 31 bits.)", "quantifier": "for all reachable states, documents and updates without repeated keys", "why_tests_cant": "quantifies over all pairs of old and new values in all written forms, nested lists and tables included; a test compares a few values", "anchors": ["cpp/src/helper/config.cpp:update_cfg,apply_config,getConfigValue", "cpp/src/interface_pybind.cpp:update_config"]}
{"id": "C80", "title": "SPLIT and W_BIT", "statement": "With an accepted configuration of a digital integer mapping, a stored matrix of weights that fit W_BIT multiplies fitting inputs exactly. (False: SPLIT is not compared with W_BIT. If the slices have r bits less than W_BIT together, the lowest r bits of the magnitude, or of the shifted weight in I_UINT_W_OFFS, are lost, and I_OFFS_W_DIFF in addition removes the offset of the inputs with the sum of the whole weights; weights that are multiples of 2^r stay exact. If the slices have more bits than W_BIT together, no write of a non-empty matrix returns.)", "quantifier": "for all INT modes, widths, SPLIT lists, sequences of calls, weights and inputs", "why_tests_cant": "all lists of slice widths against all word lengths and all weights; the tests use matching ones", "anchors": ["cpp/src/helper/config.cpp:apply_config", "cpp/src/mapping/mapper.cpp:Mapper,d_write_diff,d_write_offs", "cpp/src/mapping/int_mapper/*.cpp:d_mvm"]}
{"id": "C81", "title": "When set_config returns", "statement": "set_config with a JSON document returns if and only if (1) there is no crossbar yet, or verbose is off, or the mapping is an integer mapping, so that the crossbar can be destroyed, (2) the document is accepted (C77), and (3) a crossbar can be built from it: the resolution the converter gets is at most 30, parasitics are not combined with I_TC_W_DIFF, slices of sliced mappings have at most 30 bits, in I_UINT_W_OFFS the largest value of every slice at its position fits 32 bits (for word lengths up to 31: the slices have no more bits than the word), and the decay of the read-disturb model is not zero. The same conditions decide whether the library can be loaded. Only the combination of parasitics and I_TC_W_DIFF ends with an exception, which leaves no crossbar.", "quantifier": "for all documents, states, stale values of the configuration before and rounding functions", "why_tests_cant": "an equivalence over all documents and all states; some of the conditions are about values that stay from an earlier configuration", "anchors": ["cpp/src/interface_pybind.cpp:set_config", "cpp/src/xbar/crossbar.cpp:Crossbar", "cpp/src/mapping/mapper.cpp:Mapper,create_from_config", "cpp/src/xbar/adc.cpp:ADC", "cpp/src/xbar/parasitics.cpp:ParasiticSolver", "cpp/src/xbar/read_disturb.cpp:ReadDisturb"]}
{"id": "C82", "title": "When update_config returns", "statement": "update_config with a JSON document without repeated keys returns, on a loaded configuration, if and only if the document changes nothing, or the current document with the changed members is accepted (C77) and, if one of the changed keys is among those a crossbar is built from, a crossbar can be built from it (C81) and the one in use can be destroyed under the new configuration (verbose off or an integer mapping). Only parasitics with I_TC_W_DIFF end with an exception; it leaves the new configuration together with the old crossbar.", "quantifier": "for all states, documents in use, updates without repeated keys, stale values and rounding functions", "why_tests_cant": "an equivalence over all pairs of documents and all states; tests show that some updates return", "anchors": ["cpp/src/interface_pybind.cpp:update_config", "cpp/src/helper/config.cpp:update_cfg,apply_config", "cpp/src/xbar/crossbar.cpp:Crossbar"]}
{"id": "C83", "title": "Cycle-to-cycle variation of size zero is no variation", "statement": "With HRS_NOISE = LRS_NOISE = 0, a crossbar goes through the same states and gives the same results with and without c2c_var. (True for binary and ternary mappings without read disturb, for every converter, rounding and with wires; false for every integer mapping, whose writes never record the currents variation starts from, so that every multiplication replaces the first m rows by HRS, and which exit for cells with more than two states; false with read disturb.)", "quantifier": "for all mappings, configurations, sequences of calls inside the crossbar and arithmetic", "why_tests_cant": "equality of two programs over all call sequences; the tests use c2c_var only with noise, where results are random", "anchors": ["cpp/src/mapping/mapper.cpp:a_add_c2c_var,a_remove_c2c_var,add_gaussian_noise,a_write_p,a_write_p_m", "cpp/src/xbar/crossbar.cpp:mvm", "cpp/src/helper/config.cpp:apply_config"]}
{"id": "C84", "title": "Device-to-device variation can be switched off", "statement": "With d2d_var = false, a programmed cell of a binary or ternary mapping carries its nominal current. (False: d2d_var is read and checked but used nowhere, the life of a crossbar does not depend on it. What decides is the deviation of the state of the cell: if it is zero, the current is nominal.)", "quantifier": "for all configurations, sequences of calls and noise streams", "why_tests_cant": "independence of a switch over all call sequences and noise streams; programmed currents are random under noise", "anchors": ["cpp/src/helper/config.cpp:apply_config", "cpp/src/mapping/mapper.cpp:a_write_p_m_bnn_tnn,a_write_p_bnn,add_gaussian_noise"]}
{"id": "C85", "title": "The configuration files of the repository", "statement": "Every file in configs/digital and every file in configs/analog named after a mapping is accepted in a new process (config.json is not). With a digital file every legal sequence of calls is answered with the exact products. With the analog file of a mapping, in single precision and for buffers up to 2^20, every legal sequence of calls is answered with the exact products if and only if the mapping is one of BNN_I to BNN_VI and TNN_I to TNN_III. The integer mappings answer every legal sequence and are off by at most 72 (I_DIFF_W_DIFF), 93 (I_OFFS_W_DIFF), 62 (I_UINT_W_OFFS) or 47 units (others), without rounding of floats by at most 1, 3, 13 and 1, and off by at least one for a row of 32 weights 64 (two weights 1 in I_UINT_W_OFFS). TNN_IV gives 25 instead of 32 and TNN_V -45 instead of -32 for a full row of ones.", "quantifier": "for all files, previous states, matrices and vectors of legal values, buffers and call sequences", "why_tests_cant": "all matrices up to 32 x 32 and all call sequences; the tests of these files multiply a single 3 x 2 matrix and pass, although five kinds of files give wrong results for wider ones", "anchors": ["cpp/test/lib/configs/digital/*.json", "cpp/test/lib/configs/analog/*.json", "cpp/test/lib/configs/config.json", "cpp/test/lib/mvm_tests.cpp", "cpp/src/interface_pybind.cpp:set_config,cpy_mtrx,exe_mvm", "cpp/src/xbar/adc.cpp:ADC::convert,get_currents"]}
{"id": "C86", "title": "Resistive wires in integer mappings", "statement": "With parasitic wires, nominal cells and any converter, a multiplication in an integer mapping of a block inside the latest write returns. Every converted number is off by at most the factor of its slice and input bit times the loss on the wires, which is N (n LRS)^2 w_res / (|V_read| 10^6), and half a step of a real converter. With a real converter each such error below one half vanishes, larger ones leave the integer nearest to them; with an ideal converter every sum loses less than one more unit; I_UINT_W_OFFS rounds only the sum. The result of a row is off by at most the sum of what is left, and exact if nothing is left. With wires of 100 kOhm results are wrong.", "quantifier": "for all integer mappings, matrices and vectors of legal values, blocks, wire resistances, read voltages, converters and call sequences, with exact arithmetic", "why_tests_cant": "all resistances, currents and sequences of calls; the tests use one resistance and one 3 x 2 matrix per mapping", "anchors": ["cpp/src/xbar/parasitics.cpp:set_conductance,compute_currents", "cpp/src/mapping/int_mapper/int_i.cpp:a_mvm", "cpp/src/mapping/int_mapper/int_ii.cpp:a_mvm", "cpp/src/mapping/int_mapper/int_iii.cpp:a_mvm", "cpp/src/mapping/int_mapper/int_iv.cpp:a_mvm", "cpp/src/mapping/int_mapper/int_v.cpp:a_mvm", "cpp/src/xbar/adc.cpp:ADC::convert", "cpp/test/lib/parasitics_tests.cpp"]}
{"id": "C87", "title": "Whole programs", "statement": "A program that loads configuration files, updates them, writes matrices and multiplies, through the C or the Python interface, returns from every call with the reply that a plain description predicts: a document that files replace and updates patch, a matrix that writes overwrite and that is dropped exactly when a file is loaded or a structural key changes, exact products added to the result buffer, or what a real converter reads of them (C91), the code -1 and an untouched buffer for blocks that do not fit, for calls before a configuration and for null updates. Nothing else of the past matters. The description leaves no choice.", "quantifier": "for all finite programs whose configurations are digital, or analog with ideal cells and wires and any usable converter in exact arithmetic, with legal values and buffers; any number of configurations, mappings, updates, matrices and rejected calls in any order", "why_tests_cant": "all sequences of calls and configurations; the tests load one configuration, write and multiply once or a few times, and never mix updates, rejected calls and both interfaces", "anchors": ["cpp/src/interface_pybind.cpp:set_config,update_config,exe_mvm,cpy_mtrx,exe_mvm_pb,update_config_pb", "cpp/src/helper/config.cpp:load_cfg,apply_config,update_cfg", "cpp/src/xbar/crossbar.cpp:Crossbar::Crossbar,write,mvm"]}
{"id": "C88", "title": "Converters whose range is too small", "statement": "A binary or ternary multiplication through a real converter always returns, also if the currents leave the range of the converter. Each conversion then adds at most an error of half a step plus the larger of two things: the deviations of the cells, and what the converter cuts off; one half is added for the rounding to an integer. The result is exact if the sum of these stays below one half. With MAX calibration only TNN_IV and TNN_V leave the range, by n*HRS/2 and 2*n*HRS for n columns. The shipped analog files of TNN_IV and TNN_V therefore answer every legal sequence of calls with an error of at most 0.6*n + 2.1 and 2.4*n + 2.1, in single precision and in exact arithmetic.", "quantifier": "for all binary and ternary mappings, sizes, matrices, inputs, histories, converter types, resolutions and calibrations, with any bounded device-to-device and cycle-to-cycle variation, in exact arithmetic and with rounded numbers of any precision", "why_tests_cant": "all ranges, matrices and inputs at once; the tests compare a few matrices with a tolerance and do not relate the error to the range of the converter", "anchors": ["cpp/src/xbar/adc.cpp:ADC::clip,ADC::convert", "cpp/src/xbar/crossbar.cpp:mvm", "cpp/test/lib/configs/analog/TNN_IV_split.json", "cpp/test/lib/configs/analog/TNN_V_split.json"]}
{"id": "C89", "title": "The out-of-bounds flag of the read disturb model", "statement": "rd_run_out_of_bounds is false for a new crossbar, is never cleared, and after any calls is true exactly if some multiplication at which an update was due found a cell in LRS (of the first array, or of the second array in a differential mapping), or with SOFTWARE mitigation a number of programmings, whose number c of cycles satisfies k*c^m >= 1. Computed exactly that means c >= 1423518; with rounded numbers it holds for no c up to 1.4 million and for all c from 1.5 million on. Without mitigation the calls alone decide. A digital crossbar never sets the flag. Without a crossbar or without read disturb the getter ends the program. A cell out of range carries no current after an update.", "quantifier": "for all configurations with read disturb, mitigation strategies, update frequencies and histories of calls, with any arithmetic; the limits for the real power function, exact or with roundings of small relative error", "why_tests_cant": "all histories of writes, multiplications and refreshes; the test switches one cell of a 1 x 1 crossbar 1.4 and 1.5 million times without mitigation", "anchors": ["cpp/src/xbar/read_disturb.cpp:ReadDisturb::calc_transition_time,ReadDisturb::get_run_out_of_bounds", "cpp/src/xbar/crossbar.cpp:mvm,get_rd_run_out_of_bounds", "cpp/src/interface_pybind.cpp:get_rd_run_out_of_bounds", "int-bindings/test/read_disturb_model_test.py"]}
{"id": "C90", "title": "What the read disturb tests claim, for all numbers of cycles and reads", "statement": "With READ_DISTURB.json, after programming the cell pair N times to +1 and -1, with reads anywhere between, and r reads since: all calls return, the counters are 2N writes, all multiplications, r reads, no refreshes, N and N-1 cycles; the plus cell carries 5 and the minus cell 30 times the scaling of the tests' golden model for r*100 ns and N-1 cycles, if N <= 1423518, and else 30 before the first read and 0 after it; the out-of-bounds flag is false if N <= 1423518 and true after a read if N is larger. With the SOFTWARE and CELL_BASED files the cells always carry exactly 5 and 30 and every result is exact. With CELL_BASED the minus cell is refreshed before every 2600 reads and the plus cell never, so after 5200 reads the minus cell has more cycles and fewer consecutive reads than the plus cell.", "quantifier": "for all numbers of rounds and reads in any order, all inputs and result buffers, and every process state in which the files are loaded without ADC profiling, in exact arithmetic with the real exponential and power functions", "why_tests_cant": "unboundedly many rounds and reads; the tests use N in {1, 100, 1000} and three read times, 1000 rounds and 200000 reads, and 1.4 and 1.5 million rounds", "anchors": ["int-bindings/test/read_disturb_model_test.py", "int-bindings/test/read_disturb_mitigation_sw_test.py", "int-bindings/test/read_disturb_mitigation_hw_test.py", "int-bindings/test/helper/rd_model.py", "cpp/src/xbar/read_disturb.cpp:ReadDisturb::calc_G0_scaling_factor,ReadDisturb::calc_transition_time", "cpp/src/xbar/crossbar.cpp:mvm,write"]}
{"id": "C91", "title": "The exact result of a multiplication through a real converter", "statement": "A multiplication of a stored block returns and adds to each result entry exactly the number that a converter formula predicts: every current of the mapping is limited to the range of the converter, replaced by the nearest of its levels, scaled and rounded to the nearest integer with halves away from zero; the readings are combined with the signs of the mapping and with its digital corrections (weight sums, input sums, column counts, offsets and leakage). The currents may leave the range. The formula is monotone in the current, off by at most half a step scaled plus one half inside the range, and constant outside. Entries outside the block are kept.", "quantifier": "for all 17 mappings, both real converter types, all resolutions from 2 to 30 bits, MAX and CALIB ranges, sizes, slicings, matrices, inputs, result buffers and sequences of calls, for cells and wires without variation in exact arithmetic, if the readings fit into 32 bits", "why_tests_cant": "all ranges, resolutions, matrices and inputs; the tests compare with the exact product and a tolerance, so most wrong roundings, clippings or corrections of less than a step remain unnoticed", "anchors": ["cpp/src/xbar/adc.cpp:ADC::clip,ADC::convert", "cpp/src/xbar/crossbar.cpp:mvm", "cpp/src/mapping/int_mapper/int_i.cpp:a_mvm", "cpp/src/mapping/int_mapper/int_ii.cpp:a_mvm", "cpp/src/mapping/int_mapper/int_iii.cpp:a_mvm", "cpp/src/mapping/int_mapper/int_iv.cpp:a_mvm", "cpp/src/mapping/int_mapper/int_v.cpp:a_mvm"]}
{"id": "C92", "title": "The converter tests for all resolutions, matrices and inputs", "statement": "The assertion of adc_test.py, round(c - e) <= result <= round(c + e) with the exact product c, e half a converter step in units of the weights and the rounding of Python, holds after set_config with the files of the tests for every legal sequence of calls. It also holds for every configuration with one slice, one input bit, MAX calibration and 0 <= HRS < LRS, except that I_UINT_W_OFFS may miss it by one unit if HRS is not a whole number of units; this unit is needed.", "quantifier": "for all six integer mappings, all resolutions up to 30 bits (from 2 for the symmetric and 1 for the positive converter), all matrices, all vectors with one input bit, all sequences of writes and multiplications and all result buffers up to 2^20, in exact arithmetic; the general form for all conductances, sizes and weight widths", "why_tests_cant": "the tests use one or two matrices and vectors per mapping, 7 or 6 resolutions and a single pair of conductances, for which HRS happens to be a whole number of units", "anchors": ["int-bindings/test/adc_test.py", "cpp/src/xbar/adc.cpp:ADC::clip,ADC::convert", "cpp/test/lib/configs/analog/SYM_ADC_1.json", "cpp/test/lib/configs/analog/POS_ADC_1.json", "cpp/src/mapping/int_mapper/int_i.cpp:a_mvm", "cpp/src/mapping/int_mapper/int_v.cpp:a_mvm"]}
{"id": "C93", "title": "Programs that use the emulation library", "statement": "In every program of registrations and calls, each call of the emulation library goes to the callback registered last for this function (null removes it) with exactly the passed arguments; without one a multiplication adds the exact product and the other calls do nothing. Each warning is printed at the first call that needs it and never again.", "quantifier": "for all sequences of registrations and calls, all callbacks and all buffers", "why_tests_cant": "the order of registrations and calls is unbounded, and the callbacks are arbitrary functions of the state of the host", "anchors": ["cpp/src/interface_emu.cpp:set_mvm_python_cb,set_cpy_python_cb,set_update_config_cb,update_config,exe_mvm,cpy_mtrx"]}
{"id": "C94", "title": "What the variability test and the update tests assert", "statement": "After any session the pair of cells of a weight +1 shows more current in the first cell, of -1 in the second, provided no noise sample reaches half the distance of the two states. After the current of the low (high) state is updated and the same matrix written again, the arrays of currents have changed exactly if some cell is not in its highest state (not in state zero); a matrix that does not fill the crossbar always shows a change of the low state. After an update of verbose, all calls have the same results, codes and ends.", "quantifier": "for all configurations of the mappings concerned, all matrices, sessions, noise samples and updated values", "why_tests_cant": "the tests use one matrix, one seed and one new value each, and the assertion on the currents holds only with high probability for Gaussian samples", "anchors": ["cpp/test/lib/var_tests.cpp:VarTest", "int-bindings/test/config_update_test.py:test_simple_parameter_update,test_crossbar_parameter_update", "cpp/src/interface_pybind.cpp:update_config,get_ia_p,get_ia_m,get_ia_p_pb,get_ia_m_pb", "cpp/src/helper/config.cpp:update_cfg"]}
{"id": "C95", "title": "What the tests of the wires assert", "statement": "After the analog file of a mapping is loaded, the update that switches the wires on is accepted for any negative voltage and positive resistance, except with I_TC_W_DIFF, where it fails. Then, in exact arithmetic, all multiplications of BNN and TNN mappings other than TNN_IV and TNN_V are exact as long as the wires take at most 6 uA (BNN_III, BNN_IV: 1.2 uA) from their columns, i.e. up to 9 (4) columns with the 1 Ohm and -0.4 V of the tests. The results of the integer mappings are exact up to an explicit error that grows with the resistance and the square of the number of columns.", "quantifier": "for all voltages, resistances, matrices, inputs and sequences of calls that fit into the crossbar", "why_tests_cant": "the tests use one matrix of two or three columns per mapping and one resistance; with 16 columns the assertion is false", "anchors": ["cpp/test/lib/parasitics_tests.cpp:ParasiticsTests", "cpp/src/helper/config.cpp:update_cfg", "cpp/src/xbar/parasitics.cpp", "cpp/src/interface_pybind.cpp:set_config,update_config,cpy_mtrx,exe_mvm"]}
{"id": "C96", "title": "Where a configuration comes from", "statement": "load_cfg and set_config read the file named by the caller or, if the caller gives no name (null or empty), the one named by CFG_FILE, and depend on nothing else of the machine. load_cfg returns true exactly if there is such a file with an acceptable document, whose values it then holds, and false, without any change, exactly if neither gives a name; a file that cannot be opened (also CFG_FILE set to the empty string) ends the program. A file that holds no JSON document makes the call throw, with nothing but the stored document and, in set_config, the crossbar lost; while the library is loaded it ends the program. Loading the library with CFG_FILE is the same as loading it without and calling set_config. Without any name set_config keeps the configuration and replaces the crossbar; in a new process it makes one without rows and columns that refuses every matrix.", "quantifier": "for all machines, names, files and states", "why_tests_cant": "tests can only use some names and files, and the environment of the test process", "anchors": ["cpp/src/helper/config.cpp:load_cfg", "cpp/src/interface_pybind.cpp:set_config", "cpp/test/lib/config_tests.cpp:LoadCfgFromPath,ConfigInitNoPathNoEnvVar,ErrorOnFaultyConfigPath,LoadCfgFromEnvVar"]}
{"id": "C97", "title": "Keys that are no parameters", "statement": "An update none of whose keys is a parameter - a misspelt key, an array, a string, a number - is accepted and changes nothing but the stored document: configuration and crossbar stay as they are. Members of a file that are no parameters do not matter, and loading the file in use once more changes no parameter. (Provided the resolution of a real converter is not -1.)", "quantifier": "for all updates, files and reachable states", "why_tests_cant": "there are infinitely many keys that are no parameters and tests can only try some", "anchors": ["cpp/src/helper/config.cpp:update_cfg,apply_config,getConfigValue", "cpp/src/interface_pybind.cpp:set_config,update_config"]}
{"id": "C98", "title": "The getter tests for all matrices", "statement": "In the binary mappings and TNN_I to TNN_III the arrays of cell states that Python sees show 1 exactly at the cells that the weights written last switch on and 0 elsewhere, and the arrays of currents show exactly LRS and HRS there, also in rounded arithmetic if HRS, LRS and their difference are floats. Hence the claims of test_get_gd and test_get_ia hold with the files they use, for every such mapping and every legal matrix, including the numbers of cells with each value; in the binary mappings with pairs of cells exactly one cell of every pair is on.", "quantifier": "for all nine mappings, previous states, matrices up to 32x32, call sequences and initial contents of the arrays", "why_tests_cant": "the tests use one mapping and one matrix of six weights", "anchors": ["int-bindings/test/digital_mapping_test.py:test_get_gd", "int-bindings/test/analog_mapping_test.py:test_get_ia", "cpp/src/interface_pybind.cpp:get_gd_p_pb,get_gd_m_pb,get_ia_p_pb,get_ia_m_pb"]}
{"id": "C99", "title": "Which calls on a digital crossbar return", "statement": "On a digital crossbar cpy_mtrx returns 0 if and only if the matrix fits, the buffer holds all weights, and the mapping can process them: for the differential integer mappings no weight is -2^31 and no partial row sum leaves int32, for the offset mapping no weight plus the offset does, the binary and ternary mappings that look at weights get only legal ones, BNN_III and TNN_V no 2^31-1, BNN_IV no -2^31, TNN_IV anything. It returns -1 if and only if the matrix does not fit. In every other case it does not return: the program is aborted or its behaviour undefined. In the mappings that look at their inputs, with legal weights in the crossbar and room in the results, exe_mvm returns 0 if and only if the dimensions fit, both buffers are large enough and every input is legal.", "quantifier": "for all mappings, session histories, dimensions, buffers of int32 numbers", "why_tests_cant": "a crash cannot be asserted, and the boundary lies at single weights of 2^32 and at partial sums over rows of every length", "anchors": ["cpp/src/interface_pybind.cpp:cpy_mtrx,exe_mvm", "cpp/src/mapping/mapper.cpp:d_write_diff,d_write_offs,d_write_diff_bnn,d_write_diff_tnn,d_write_tc_tnn", "cpp/src/xbar/crossbar.cpp:Crossbar::write", "cpp/src/mapping/bnn_mapper/bnn_i.cpp:d_write,d_mvm", "cpp/src/mapping/bnn_mapper/bnn_ii.cpp:d_write,d_mvm", "cpp/src/mapping/bnn_mapper/bnn_iii.cpp:d_write,d_mvm", "cpp/src/mapping/bnn_mapper/bnn_iv.cpp:d_write,d_mvm", "cpp/src/mapping/bnn_mapper/bnn_v.cpp:d_write,d_mvm", "cpp/src/mapping/bnn_mapper/bnn_vi.cpp:d_write,d_mvm", "cpp/src/mapping/tnn_mapper/tnn_i.cpp:d_write,d_mvm", "cpp/src/mapping/tnn_mapper/tnn_ii.cpp:d_write,d_mvm", "cpp/src/mapping/tnn_mapper/tnn_iii.cpp:d_write,d_mvm", "cpp/src/mapping/tnn_mapper/tnn_iv.cpp:d_write,d_mvm", "cpp/src/mapping/tnn_mapper/tnn_v.cpp:d_write,d_mvm"]}
{"id": "C100", "title": "Operands outside the alphabet of a binary or ternary mapping", "statement": "A digital binary or ternary multiplication that returns has added, row by row, the products of the weights and inputs as the mapping sees them, whatever numbers were written and passed. BNN_III sees a weight w as 2*floor((w+1)/2)-1, BNN_IV as 1-2*trunc((1-w)/2), TNN_IV as the two's complement number of the two low bits of w, TNN_V as the number from -1 to 2 that is w modulo 4. BNN_I and BNN_II see inputs as BNN_III and BNN_IV see weights, TNN_III as TNN_V does, and TNN_II sees every input other than 0 and -1 as 1. Every other operand is checked by the call and legal when it returns. The sum is exact, in TNN_V modulo 2^32. An operand that is not checked is seen as it is exactly when it is odd (BNN), between -2 and 1 (TNN_IV), between -1 and 2 (TNN_V, TNN_III), or -1, 0, 1 (TNN_II), and with such operands the product is exact.", "quantifier": "for all binary and ternary mappings, histories, dimensions, weights, inputs and results of a call that returns", "why_tests_cant": "tests pass legal operands, and the numbers outside are 2^32 for every cell and input", "anchors": ["cpp/src/xbar/crossbar.cpp:Crossbar::mvm", "cpp/src/mapping/mapper.cpp:d_write_diff_bnn,d_write_diff_tnn,d_write_tc_tnn", "cpp/src/mapping/bnn_mapper/bnn_i.cpp:d_write,d_mvm", "cpp/src/mapping/bnn_mapper/bnn_ii.cpp:d_write,d_mvm", "cpp/src/mapping/bnn_mapper/bnn_iii.cpp:d_write,d_mvm", "cpp/src/mapping/bnn_mapper/bnn_iv.cpp:d_write,d_mvm", "cpp/src/mapping/bnn_mapper/bnn_v.cpp:d_write,d_mvm", "cpp/src/mapping/bnn_mapper/bnn_vi.cpp:d_write,d_mvm", "cpp/src/mapping/tnn_mapper/tnn_i.cpp:d_write,d_mvm", "cpp/src/mapping/tnn_mapper/tnn_ii.cpp:d_write,d_mvm", "cpp/src/mapping/tnn_mapper/tnn_iii.cpp:d_write,d_mvm", "cpp/src/mapping/tnn_mapper/tnn_iv.cpp:d_write,d_mvm", "cpp/src/mapping/tnn_mapper/tnn_v.cpp:d_write,d_mvm"]}
{"id": "C101", "title": "Which writes an analog crossbar carries out", "statement": "On an analog crossbar without wire resistance, whatever its noise and read disturb settings, cpy_mtrx returns 0 if and only if the matrix fits, the buffer holds all weights and the cells can store them: as on a digital crossbar, except that BNN_III takes the weights from -1 to 2 and BNN_IV those from -2 to 2 only, because a cell state other than 0 and 1 ends the program even without noise. Every other write of a matrix that fits does not return. So an analog crossbar stores nothing that a digital one refuses, and the two differ in BNN_III and BNN_IV only.", "quantifier": "for all mappings, noise and disturb parameters, histories of a crossbar whose configuration is not updated in place, dimensions, buffers of int32 numbers", "why_tests_cant": "a crash cannot be asserted, and the tests write legal weights only", "anchors": ["cpp/src/interface_pybind.cpp:cpy_mtrx", "cpp/src/mapping/mapper.cpp:a_write_p_m,a_write_p_m_bnn_tnn,a_write_p,a_write_p_bnn,add_gaussian_noise", "cpp/src/xbar/crossbar.cpp:Crossbar::write", "cpp/src/mapping/bnn_mapper/bnn_i.cpp:a_write", "cpp/src/mapping/bnn_mapper/bnn_ii.cpp:a_write", "cpp/src/mapping/bnn_mapper/bnn_iii.cpp:a_write", "cpp/src/mapping/bnn_mapper/bnn_iv.cpp:a_write", "cpp/src/mapping/bnn_mapper/bnn_v.cpp:a_write", "cpp/src/mapping/bnn_mapper/bnn_vi.cpp:a_write", "cpp/src/mapping/tnn_mapper/tnn_i.cpp:a_write", "cpp/src/mapping/tnn_mapper/tnn_ii.cpp:a_write", "cpp/src/mapping/tnn_mapper/tnn_iii.cpp:a_write", "cpp/src/mapping/tnn_mapper/tnn_iv.cpp:a_write", "cpp/src/mapping/tnn_mapper/tnn_v.cpp:a_write"]}
{"id": "C102", "title": "A call is the call with the operands the mapping sees", "statement": "In the binary and ternary mappings, on a digital or analog crossbar and whatever it simulates (noise, wires, read disturb, any converter), a cpy_mtrx or exe_mvm that returns leaves the simulator in the state, and the result buffer with the numbers, that the same call with every operand replaced by the one the mapping sees (rounded to an odd number in BNN_I to BNN_IV, sign-extended two bits in TNN_III to TNN_V, its sign class in TNN_II) leaves. Replacing twice is replacing once, and every history of calls is also the history of the replaced calls. So an ideal analog crossbar adds the product of the operands seen, as a digital one does.", "quantifier": "for all mappings, configurations, sessions, dimensions and buffers; the products for ideal crossbars and seen operands in the alphabet", "why_tests_cant": "the tests use operands in the alphabet only, where nothing is replaced", "anchors": ["cpp/src/interface_pybind.cpp:cpy_mtrx,exe_mvm", "cpp/src/mapping/bnn_mapper/bnn_i.cpp:d_write,a_write,d_mvm,a_mvm", "cpp/src/mapping/bnn_mapper/bnn_ii.cpp:d_write,a_write,d_mvm,a_mvm", "cpp/src/mapping/bnn_mapper/bnn_iii.cpp:d_write,a_write,d_mvm,a_mvm", "cpp/src/mapping/bnn_mapper/bnn_iv.cpp:d_write,a_write,d_mvm,a_mvm", "cpp/src/mapping/bnn_mapper/bnn_v.cpp:d_write,a_write,d_mvm,a_mvm", "cpp/src/mapping/bnn_mapper/bnn_vi.cpp:d_write,a_write,d_mvm,a_mvm", "cpp/src/mapping/tnn_mapper/tnn_i.cpp:d_write,a_write,d_mvm,a_mvm", "cpp/src/mapping/tnn_mapper/tnn_ii.cpp:d_write,a_write,d_mvm,a_mvm", "cpp/src/mapping/tnn_mapper/tnn_iii.cpp:d_write,a_write,d_mvm,a_mvm", "cpp/src/mapping/tnn_mapper/tnn_iv.cpp:d_write,a_write,d_mvm,a_mvm", "cpp/src/mapping/tnn_mapper/tnn_v.cpp:d_write,a_write,d_mvm,a_mvm"]}
{"id": "C103", "title": "A call from Python works on the arrays it is given", "statement": "cpy_mtrx and exe_mvm called from Python store the matrix and multiply with the vector that numpy shows, and add the products to the elements of the result array, whatever the element types and memory layouts of the arrays.", "quantifier": "for all digital sessions, legal operands, arrays of one or two axes with any offset, shape, strides and element type", "why_tests_cant": "the tests only pass freshly made arrays of int32", "anchors": ["cpp/src/interface_pybind.cpp:exe_mvm_pb,cpy_mtrx_pb"]}
{"id": "C104", "title": "Which multiplications on an analog crossbar return", "statement": "An exe_mvm that returns 0 on an analog crossbar, whatever noise, wires, read disturb and converter it simulates, had dimensions that fit, buffers that hold all inputs and results, and inputs of the alphabet if the mapping looks at them. On an ideal crossbar with stored weights of the alphabet these conditions are also sufficient, and the products added are then exact.", "quantifier": "for all mappings (integer ones with valid resolution and splits), sessions, dimensions, buffers; sufficiency for ideal crossbars in exact arithmetic whose result fits int32", "why_tests_cant": "a program that ends cannot be asserted, and buffers that are too short do not fail reliably", "anchors": ["cpp/src/interface_pybind.cpp:exe_mvm", "cpp/src/xbar/crossbar.cpp:Crossbar::mvm", "cpp/src/mapping/bnn_mapper/bnn_i.cpp:a_mvm", "cpp/src/mapping/bnn_mapper/bnn_ii.cpp:a_mvm", "cpp/src/mapping/bnn_mapper/bnn_iii.cpp:a_mvm", "cpp/src/mapping/bnn_mapper/bnn_iv.cpp:a_mvm", "cpp/src/mapping/bnn_mapper/bnn_v.cpp:a_mvm", "cpp/src/mapping/bnn_mapper/bnn_vi.cpp:a_mvm", "cpp/src/mapping/tnn_mapper/tnn_i.cpp:a_mvm", "cpp/src/mapping/tnn_mapper/tnn_ii.cpp:a_mvm", "cpp/src/mapping/tnn_mapper/tnn_iii.cpp:a_mvm", "cpp/src/mapping/tnn_mapper/tnn_iv.cpp:a_mvm", "cpp/src/mapping/tnn_mapper/tnn_v.cpp:a_mvm", "cpp/src/mapping/int_mapper/int_i.cpp:a_mvm", "cpp/src/mapping/int_mapper/int_ii.cpp:a_mvm", "cpp/src/mapping/int_mapper/int_iii.cpp:a_mvm", "cpp/src/mapping/int_mapper/int_iv.cpp:a_mvm", "cpp/src/mapping/int_mapper/int_v.cpp:a_mvm"]}
{"id": "C105", "title": "Calls do not look behind their operands", "statement": "The outcome of cpy_mtrx - state, exception or crash - is determined by the first m*n numbers of the matrix buffer, that of exe_mvm by the first n inputs and the first m numbers of the result buffer; what follows in these buffers and the matrix passed to exe_mvm have no influence. This holds in every state of the library, with noise, wires, read disturb and any converter.", "quantifier": "for all mappings, configurations, states of the library, dimensions, buffers that hold the operands, and all outcomes", "why_tests_cant": "reading past the end of a buffer rarely changes a result in a test, and the tests pass buffers of exactly the needed length", "anchors": ["cpp/src/interface_pybind.cpp:cpy_mtrx", "cpp/src/interface_pybind.cpp:exe_mvm", "cpp/src/xbar/crossbar.cpp:Crossbar::mvm", "cpp/src/mapping/bnn_mapper/bnn_i.cpp:a_mvm", "cpp/src/mapping/bnn_mapper/bnn_ii.cpp:a_mvm", "cpp/src/mapping/bnn_mapper/bnn_iii.cpp:a_mvm", "cpp/src/mapping/bnn_mapper/bnn_iv.cpp:a_mvm", "cpp/src/mapping/bnn_mapper/bnn_v.cpp:a_mvm", "cpp/src/mapping/bnn_mapper/bnn_vi.cpp:a_mvm", "cpp/src/mapping/tnn_mapper/tnn_i.cpp:a_mvm", "cpp/src/mapping/tnn_mapper/tnn_ii.cpp:a_mvm", "cpp/src/mapping/tnn_mapper/tnn_iii.cpp:a_mvm", "cpp/src/mapping/tnn_mapper/tnn_iv.cpp:a_mvm", "cpp/src/mapping/tnn_mapper/tnn_v.cpp:a_mvm"]}
{"id": "C106", "title": "The unit of the currents does not matter", "statement": "Expressing all currents in another unit - cell currents, standard deviations of the noise, calibrated converter ranges and random samples times c, wire resistances divided by c - changes no result of any multiplication and not the way a sequence of calls fails, and multiplies all cell currents by c. This covers noise, cycle-to-cycle variation, read disturb with all refresh strategies, wires and all converters without profiling; c may be any positive number in exact arithmetic and any power of two with floating-point rounding (no underflow).", "quantifier": "for all mappings, configurations without converter profiling, units, random streams and sequences of calls of any length", "why_tests_cant": "a missing or doubled factor in one current cancels in tests that use a single pair of cell currents; the property compares two runs with different configurations", "anchors": ["cpp/src/mapping/mapper.cpp:Mapper::a_write_p_m_bnn_tnn", "cpp/src/mapping/mapper.cpp:Mapper::add_gaussian_noise", "cpp/src/xbar/parasitics.cpp:set_conductance_matrix", "cpp/src/xbar/crossbar.cpp:Crossbar::mvm", "cpp/src/mapping/bnn_mapper/bnn_i.cpp:a_mvm", "cpp/src/mapping/bnn_mapper/bnn_ii.cpp:a_mvm", "cpp/src/mapping/bnn_mapper/bnn_iii.cpp:a_mvm", "cpp/src/mapping/bnn_mapper/bnn_iv.cpp:a_mvm", "cpp/src/mapping/bnn_mapper/bnn_v.cpp:a_mvm", "cpp/src/mapping/bnn_mapper/bnn_vi.cpp:a_mvm", "cpp/src/mapping/tnn_mapper/tnn_i.cpp:a_mvm", "cpp/src/mapping/tnn_mapper/tnn_ii.cpp:a_mvm", "cpp/src/mapping/tnn_mapper/tnn_iii.cpp:a_mvm", "cpp/src/mapping/tnn_mapper/tnn_iv.cpp:a_mvm", "cpp/src/mapping/tnn_mapper/tnn_v.cpp:a_mvm", "cpp/src/mapping/int_mapper/int_i.cpp:a_mvm", "cpp/src/mapping/int_mapper/int_ii.cpp:a_mvm", "cpp/src/mapping/int_mapper/int_iii.cpp:a_mvm", "cpp/src/mapping/int_mapper/int_iv.cpp:a_mvm", "cpp/src/mapping/int_mapper/int_v.cpp:a_mvm"]}
{"id": "C107", "title": "Rows of the weight matrix are independent", "statement": "Entry i of every result depends on the weights of row i only: if two sequences of writes and multiplications differ in other rows of the weight matrices (and other entries of the result buffers) only, and both return, then all results agree in entry i. This includes noise, cycle-to-cycle variation, wires, read disturb and all converters. It requires that noise is applied to both states or to none, and that single cells are not refreshed with noise: otherwise the number of random samples drawn for a row depends on its weights, and a row does depend on the rows before it.", "quantifier": "for all mappings, configurations with noise on both or none of the states and no noisy cell-based refresh, random streams and sequences of calls of any length and size", "why_tests_cant": "cross talk through a buffer shared by all rows, a stale offset or a shifted random stream shows for particular matrices only; the property compares two runs with different matrices", "anchors": ["cpp/src/mapping/mapper.cpp:Mapper::a_write_p_m_bnn_tnn", "cpp/src/mapping/mapper.cpp:Mapper::add_gaussian_noise", "cpp/src/xbar/parasitics.cpp:compute_currents", "cpp/src/xbar/crossbar.cpp:Crossbar::mvm", "cpp/src/xbar/read_disturb.cpp:ReadDisturb::update_cycles", "cpp/src/mapping/bnn_mapper/bnn_i.cpp:a_mvm", "cpp/src/mapping/bnn_mapper/bnn_ii.cpp:a_mvm", "cpp/src/mapping/bnn_mapper/bnn_iii.cpp:a_mvm", "cpp/src/mapping/bnn_mapper/bnn_iv.cpp:a_mvm", "cpp/src/mapping/bnn_mapper/bnn_v.cpp:a_mvm", "cpp/src/mapping/bnn_mapper/bnn_vi.cpp:a_mvm", "cpp/src/mapping/tnn_mapper/tnn_i.cpp:a_mvm", "cpp/src/mapping/tnn_mapper/tnn_ii.cpp:a_mvm", "cpp/src/mapping/tnn_mapper/tnn_iii.cpp:a_mvm", "cpp/src/mapping/tnn_mapper/tnn_iv.cpp:a_mvm", "cpp/src/mapping/tnn_mapper/tnn_v.cpp:a_mvm", "cpp/src/mapping/int_mapper/int_i.cpp:a_mvm", "cpp/src/mapping/int_mapper/int_ii.cpp:a_mvm", "cpp/src/mapping/int_mapper/int_iii.cpp:a_mvm", "cpp/src/mapping/int_mapper/int_iv.cpp:a_mvm", "cpp/src/mapping/int_mapper/int_v.cpp:a_mvm", "cpp/src/mapping/bnn_mapper/bnn_i.cpp:d_mvm", "cpp/src/mapping/bnn_mapper/bnn_ii.cpp:d_mvm", "cpp/src/mapping/bnn_mapper/bnn_iii.cpp:d_mvm", "cpp/src/mapping/bnn_mapper/bnn_iv.cpp:d_mvm", "cpp/src/mapping/bnn_mapper/bnn_v.cpp:d_mvm", "cpp/src/mapping/bnn_mapper/bnn_vi.cpp:d_mvm", "cpp/src/mapping/tnn_mapper/tnn_i.cpp:d_mvm", "cpp/src/mapping/tnn_mapper/tnn_ii.cpp:d_mvm", "cpp/src/mapping/tnn_mapper/tnn_iii.cpp:d_mvm", "cpp/src/mapping/tnn_mapper/tnn_iv.cpp:d_mvm", "cpp/src/mapping/tnn_mapper/tnn_v.cpp:d_mvm", "cpp/src/mapping/int_mapper/int_i.cpp:d_mvm", "cpp/src/mapping/int_mapper/int_ii.cpp:d_mvm", "cpp/src/mapping/int_mapper/int_iii.cpp:d_mvm", "cpp/src/mapping/int_mapper/int_iv.cpp:d_mvm", "cpp/src/mapping/int_mapper/int_v.cpp:d_mvm"]}
{"id": "C108", "title": "Equal rows give equal results", "statement": "If every write gives the same weights to rows i and i', and every multiplication uses both or neither of them and starts from equal entries i and i' of the result buffer, then entries i and i' of every result are equal. This holds for every rounding, with wires, read disturb, all converters and repeated writes of different sizes, as long as the state of a cell depends only on its weights and on the multiplications with it: no noise in the binary and ternary mappings, and neither read disturb nor cycle-to-cycle variation in the integer mappings. In the mappings with two slices reads are counted for twice as many rows as the matrix has, so that with refreshes of single cells equal rows are told apart. Cycle-to-cycle variation tells equal rows apart in the integer mappings even if the standard deviations are zero, because only as many rows of cells are treated as the matrix has rows.", "quantifier": "for all mappings, roundings, sequences of calls of any length and size and all pairs of rows, for configurations in which the state of a cell depends on its weights and on the multiplications with it only", "why_tests_cant": "a row that is treated differently, because of its position or because of values left over from an earlier and larger matrix, shows for particular sizes and sequences of calls only", "anchors": ["cpp/src/mapping/mapper.cpp:Mapper::a_write_p_m", "cpp/src/mapping/mapper.cpp:Mapper::a_write_p_m_bnn_tnn", "cpp/src/mapping/mapper.cpp:Mapper::a_add_c2c_var", "cpp/src/xbar/parasitics.cpp:compute_currents", "cpp/src/xbar/read_disturb.cpp:ReadDisturb::update_cycles", "cpp/src/xbar/crossbar.cpp:Crossbar::mvm", "cpp/src/mapping/bnn_mapper/bnn_i.cpp:a_mvm", "cpp/src/mapping/bnn_mapper/bnn_ii.cpp:a_mvm", "cpp/src/mapping/bnn_mapper/bnn_iii.cpp:a_mvm", "cpp/src/mapping/bnn_mapper/bnn_iv.cpp:a_mvm", "cpp/src/mapping/bnn_mapper/bnn_v.cpp:a_mvm", "cpp/src/mapping/bnn_mapper/bnn_vi.cpp:a_mvm", "cpp/src/mapping/tnn_mapper/tnn_i.cpp:a_mvm", "cpp/src/mapping/tnn_mapper/tnn_ii.cpp:a_mvm", "cpp/src/mapping/tnn_mapper/tnn_iii.cpp:a_mvm", "cpp/src/mapping/tnn_mapper/tnn_iv.cpp:a_mvm", "cpp/src/mapping/tnn_mapper/tnn_v.cpp:a_mvm", "cpp/src/mapping/int_mapper/int_i.cpp:a_mvm", "cpp/src/mapping/int_mapper/int_ii.cpp:a_mvm", "cpp/src/mapping/int_mapper/int_iii.cpp:a_mvm", "cpp/src/mapping/int_mapper/int_iv.cpp:a_mvm", "cpp/src/mapping/int_mapper/int_v.cpp:a_mvm", "cpp/src/mapping/bnn_mapper/bnn_i.cpp:d_mvm", "cpp/src/mapping/bnn_mapper/bnn_ii.cpp:d_mvm", "cpp/src/mapping/bnn_mapper/bnn_iii.cpp:d_mvm", "cpp/src/mapping/bnn_mapper/bnn_iv.cpp:d_mvm", "cpp/src/mapping/bnn_mapper/bnn_v.cpp:d_mvm", "cpp/src/mapping/bnn_mapper/bnn_vi.cpp:d_mvm", "cpp/src/mapping/tnn_mapper/tnn_i.cpp:d_mvm", "cpp/src/mapping/tnn_mapper/tnn_ii.cpp:d_mvm", "cpp/src/mapping/tnn_mapper/tnn_iii.cpp:d_mvm", "cpp/src/mapping/tnn_mapper/tnn_iv.cpp:d_mvm", "cpp/src/mapping/tnn_mapper/tnn_v.cpp:d_mvm", "cpp/src/mapping/int_mapper/int_i.cpp:d_mvm", "cpp/src/mapping/int_mapper/int_ii.cpp:d_mvm", "cpp/src/mapping/int_mapper/int_iii.cpp:d_mvm", "cpp/src/mapping/int_mapper/int_iv.cpp:d_mvm", "cpp/src/mapping/int_mapper/int_v.cpp:d_mvm"]}
{"id": "C109", "title": "The order of the products survives exactly in the mappings with one reading per row", "statement": "With cells without variation and exact arithmetic, a multiplication through a real converter never adds less to the row with the larger product in BNN_V, BNN_VI and TNN_I, for any resolution, any range, also if currents leave the range, and also if HRS is larger than LRS. So rows with equal products get equal results and the row with the largest product has the largest result. In each of the other mappings the order can be reversed, already with the converter meant for the mapping and the MAX range.", "quantifier": "for all mappings with one reading per row, converters, resolutions, ranges, sizes, matrices, inputs, buffers and histories of calls; a counterexample for each other mapping", "why_tests_cant": "the tests compare single results with a tolerance and never compare rows; a reversal needs particular pairs of rows for each resolution", "anchors": ["cpp/src/xbar/adc.cpp:ADC::clip,ADC::convert", "cpp/src/xbar/crossbar.cpp:Crossbar::mvm", "cpp/src/mapping/bnn_mapper/bnn_i.cpp:a_mvm", "cpp/src/mapping/bnn_mapper/bnn_ii.cpp:a_mvm", "cpp/src/mapping/bnn_mapper/bnn_iii.cpp:a_mvm", "cpp/src/mapping/bnn_mapper/bnn_iv.cpp:a_mvm", "cpp/src/mapping/bnn_mapper/bnn_v.cpp:a_mvm", "cpp/src/mapping/bnn_mapper/bnn_vi.cpp:a_mvm", "cpp/src/mapping/tnn_mapper/tnn_i.cpp:a_mvm", "cpp/src/mapping/tnn_mapper/tnn_ii.cpp:a_mvm", "cpp/src/mapping/tnn_mapper/tnn_iii.cpp:a_mvm", "cpp/src/mapping/tnn_mapper/tnn_iv.cpp:a_mvm", "cpp/src/mapping/tnn_mapper/tnn_v.cpp:a_mvm", "cpp/src/mapping/int_mapper/int_i.cpp:a_mvm", "cpp/src/mapping/int_mapper/int_ii.cpp:a_mvm", "cpp/src/mapping/int_mapper/int_iii.cpp:a_mvm", "cpp/src/mapping/int_mapper/int_iv.cpp:a_mvm", "cpp/src/mapping/int_mapper/int_v.cpp:a_mvm"]}
{"id": "C110", "title": "The order of the columns does not matter, except for the rounding of float", "statement": "If the columns of the matrix are stored in another order and the input is reordered in the same way, a multiplication returns the same entries: in digital crossbars for any arithmetic, and in analog crossbars with cells without variation in exact arithmetic, through any real converter and also if currents leave its range. In float it is false: the sum of the currents is rounded after each column, and with a coarse converter the results of two orders can be 0 and 4 for the product 2.", "quantifier": "for all 17 mappings, sizes, matrices, inputs, orders of the columns, converters, ranges and histories of calls; a counterexample for float", "why_tests_cant": "the tests never store a matrix in two orders; an index that is off in one of the loops over the columns shows for particular orders only", "anchors": ["cpp/src/mapping/mapper.cpp:Mapper::a_write_p_m", "cpp/src/mapping/mapper.cpp:Mapper::a_write_p_m_bnn_tnn", "cpp/src/xbar/adc.cpp:ADC::clip,ADC::convert", "cpp/src/xbar/crossbar.cpp:Crossbar::mvm", "cpp/src/mapping/bnn_mapper/bnn_i.cpp:a_mvm", "cpp/src/mapping/bnn_mapper/bnn_ii.cpp:a_mvm", "cpp/src/mapping/bnn_mapper/bnn_iii.cpp:a_mvm", "cpp/src/mapping/bnn_mapper/bnn_iv.cpp:a_mvm", "cpp/src/mapping/bnn_mapper/bnn_v.cpp:a_mvm", "cpp/src/mapping/bnn_mapper/bnn_vi.cpp:a_mvm", "cpp/src/mapping/tnn_mapper/tnn_i.cpp:a_mvm", "cpp/src/mapping/tnn_mapper/tnn_ii.cpp:a_mvm", "cpp/src/mapping/tnn_mapper/tnn_iii.cpp:a_mvm", "cpp/src/mapping/tnn_mapper/tnn_iv.cpp:a_mvm", "cpp/src/mapping/tnn_mapper/tnn_v.cpp:a_mvm", "cpp/src/mapping/int_mapper/int_i.cpp:a_mvm", "cpp/src/mapping/int_mapper/int_ii.cpp:a_mvm", "cpp/src/mapping/int_mapper/int_iii.cpp:a_mvm", "cpp/src/mapping/int_mapper/int_iv.cpp:a_mvm", "cpp/src/mapping/int_mapper/int_v.cpp:a_mvm", "cpp/src/mapping/bnn_mapper/bnn_i.cpp:d_mvm", "cpp/src/mapping/bnn_mapper/bnn_ii.cpp:d_mvm", "cpp/src/mapping/bnn_mapper/bnn_iii.cpp:d_mvm", "cpp/src/mapping/bnn_mapper/bnn_iv.cpp:d_mvm", "cpp/src/mapping/bnn_mapper/bnn_v.cpp:d_mvm", "cpp/src/mapping/bnn_mapper/bnn_vi.cpp:d_mvm", "cpp/src/mapping/tnn_mapper/tnn_i.cpp:d_mvm", "cpp/src/mapping/tnn_mapper/tnn_ii.cpp:d_mvm", "cpp/src/mapping/tnn_mapper/tnn_iii.cpp:d_mvm", "cpp/src/mapping/tnn_mapper/tnn_iv.cpp:d_mvm", "cpp/src/mapping/tnn_mapper/tnn_v.cpp:d_mvm", "cpp/src/mapping/int_mapper/int_i.cpp:d_mvm", "cpp/src/mapping/int_mapper/int_ii.cpp:d_mvm", "cpp/src/mapping/int_mapper/int_iii.cpp:d_mvm", "cpp/src/mapping/int_mapper/int_iv.cpp:d_mvm", "cpp/src/mapping/int_mapper/int_v.cpp:d_mvm"]}
{"id": "C111", "title": "The opposite input adds the opposite number", "statement": "In the mappings that treat positive and negative inputs alike (I_DIFF_W_DIFF_1XB, I_DIFF_W_DIFF_2XB, BNN_VI, TNN_I) a multiplication with the opposite input through a symmetric converter adds the opposite numbers to the result, however coarse the converter is.", "quantifier": "for all sizes, matrices, legal inputs, resolutions, symmetric ranges and histories of calls, for cells without variation in exact arithmetic", "why_tests_cant": "the tests never compare an input with its opposite; currents halfway between two levels occur for particular products and resolutions only", "anchors": ["cpp/src/xbar/adc.cpp:ADC::clip,ADC::convert", "cpp/src/xbar/crossbar.cpp:Crossbar::mvm", "cpp/src/mapping/int_mapper/int_i.cpp:a_mvm", "cpp/src/mapping/int_mapper/int_ii.cpp:a_mvm", "cpp/src/mapping/bnn_mapper/bnn_vi.cpp:a_mvm", "cpp/src/mapping/tnn_mapper/tnn_i.cpp:a_mvm"]}
{"id": "C112", "title": "A matrix wider than the crossbar can be multiplied in tiles", "statement": "If a matrix with more columns than the crossbar is cut into tiles of columns, and the tiles are written and multiplied one after the other with the same result buffer, all calls succeed and together they add the exact product of the whole matrix (digital crossbars and ideal analog ones), or the product up to the sum of the error bounds of the tiles (real converter whose range no current leaves).", "quantifier": "for all widths, all ways of cutting into any number of tiles of any widths, all matrices, legal inputs, result buffers, mapping modes and histories of calls; analog crossbars in exact arithmetic", "why_tests_cant": "the tests multiply matrices that fit into the crossbar; none of them cuts a matrix into tiles", "anchors": ["cpp/src/xbar/crossbar.cpp:Crossbar::write,Crossbar::mvm", "cpp/src/mapping/int_mapper/int_i.cpp:d_mvm", "cpp/src/mapping/int_mapper/int_ii.cpp:d_mvm", "cpp/src/mapping/int_mapper/int_iii.cpp:d_mvm", "cpp/src/mapping/int_mapper/int_iv.cpp:d_mvm", "cpp/src/mapping/int_mapper/int_v.cpp:d_mvm", "cpp/src/mapping/bnn_mapper/bnn_i.cpp:d_mvm", "cpp/src/mapping/bnn_mapper/bnn_ii.cpp:d_mvm", "cpp/src/mapping/bnn_mapper/bnn_iii.cpp:d_mvm", "cpp/src/mapping/bnn_mapper/bnn_iv.cpp:d_mvm", "cpp/src/mapping/bnn_mapper/bnn_v.cpp:d_mvm", "cpp/src/mapping/bnn_mapper/bnn_vi.cpp:d_mvm", "cpp/src/mapping/tnn_mapper/tnn_i.cpp:d_mvm", "cpp/src/mapping/tnn_mapper/tnn_ii.cpp:d_mvm", "cpp/src/mapping/tnn_mapper/tnn_iii.cpp:d_mvm", "cpp/src/mapping/tnn_mapper/tnn_iv.cpp:d_mvm", "cpp/src/mapping/tnn_mapper/tnn_v.cpp:d_mvm", "cpp/src/mapping/int_mapper/int_i.cpp:a_mvm", "cpp/src/mapping/int_mapper/int_ii.cpp:a_mvm", "cpp/src/mapping/int_mapper/int_iii.cpp:a_mvm", "cpp/src/mapping/int_mapper/int_iv.cpp:a_mvm", "cpp/src/mapping/int_mapper/int_v.cpp:a_mvm", "cpp/src/mapping/bnn_mapper/bnn_i.cpp:a_mvm", "cpp/src/mapping/bnn_mapper/bnn_ii.cpp:a_mvm", "cpp/src/mapping/bnn_mapper/bnn_iii.cpp:a_mvm", "cpp/src/mapping/bnn_mapper/bnn_iv.cpp:a_mvm", "cpp/src/mapping/bnn_mapper/bnn_v.cpp:a_mvm", "cpp/src/mapping/bnn_mapper/bnn_vi.cpp:a_mvm", "cpp/src/mapping/tnn_mapper/tnn_i.cpp:a_mvm", "cpp/src/mapping/tnn_mapper/tnn_ii.cpp:a_mvm", "cpp/src/mapping/tnn_mapper/tnn_iii.cpp:a_mvm", "cpp/src/mapping/tnn_mapper/tnn_iv.cpp:a_mvm", "cpp/src/mapping/tnn_mapper/tnn_v.cpp:a_mvm"]}
{"id": "C113", "title": "It does not matter where a row is stored", "statement": "A row of weights adds the same number to its result in every row of every crossbar that is configured alike up to its height, whatever else is stored there, through any real converter and also if currents leave its range. So a matrix with more rows than the crossbar can be cut into blocks of rows: a block on a lower crossbar returns the entries that a crossbar for the whole matrix returns for these rows.", "quantifier": "for all heights, rows, blocks, matrices, legal inputs, mapping modes, converters and histories of calls; analog crossbars with ideal cells in exact arithmetic, digital ones in any arithmetic", "why_tests_cant": "no test compares the results of equal rows in different places or in crossbars of different heights", "anchors": ["cpp/src/xbar/crossbar.cpp:Crossbar::write,Crossbar::mvm", "cpp/src/xbar/adc.cpp:ADC::clip,ADC::convert", "cpp/src/mapping/int_mapper/int_i.cpp:d_mvm", "cpp/src/mapping/int_mapper/int_ii.cpp:d_mvm", "cpp/src/mapping/int_mapper/int_iii.cpp:d_mvm", "cpp/src/mapping/int_mapper/int_iv.cpp:d_mvm", "cpp/src/mapping/int_mapper/int_v.cpp:d_mvm", "cpp/src/mapping/bnn_mapper/bnn_i.cpp:d_mvm", "cpp/src/mapping/bnn_mapper/bnn_ii.cpp:d_mvm", "cpp/src/mapping/bnn_mapper/bnn_iii.cpp:d_mvm", "cpp/src/mapping/bnn_mapper/bnn_iv.cpp:d_mvm", "cpp/src/mapping/bnn_mapper/bnn_v.cpp:d_mvm", "cpp/src/mapping/bnn_mapper/bnn_vi.cpp:d_mvm", "cpp/src/mapping/tnn_mapper/tnn_i.cpp:d_mvm", "cpp/src/mapping/tnn_mapper/tnn_ii.cpp:d_mvm", "cpp/src/mapping/tnn_mapper/tnn_iii.cpp:d_mvm", "cpp/src/mapping/tnn_mapper/tnn_iv.cpp:d_mvm", "cpp/src/mapping/tnn_mapper/tnn_v.cpp:d_mvm", "cpp/src/mapping/int_mapper/int_i.cpp:a_mvm", "cpp/src/mapping/int_mapper/int_ii.cpp:a_mvm", "cpp/src/mapping/int_mapper/int_iii.cpp:a_mvm", "cpp/src/mapping/int_mapper/int_iv.cpp:a_mvm", "cpp/src/mapping/int_mapper/int_v.cpp:a_mvm", "cpp/src/mapping/bnn_mapper/bnn_i.cpp:a_mvm", "cpp/src/mapping/bnn_mapper/bnn_ii.cpp:a_mvm", "cpp/src/mapping/bnn_mapper/bnn_iii.cpp:a_mvm", "cpp/src/mapping/bnn_mapper/bnn_iv.cpp:a_mvm", "cpp/src/mapping/bnn_mapper/bnn_v.cpp:a_mvm", "cpp/src/mapping/bnn_mapper/bnn_vi.cpp:a_mvm", "cpp/src/mapping/tnn_mapper/tnn_i.cpp:a_mvm", "cpp/src/mapping/tnn_mapper/tnn_ii.cpp:a_mvm", "cpp/src/mapping/tnn_mapper/tnn_iii.cpp:a_mvm", "cpp/src/mapping/tnn_mapper/tnn_iv.cpp:a_mvm", "cpp/src/mapping/tnn_mapper/tnn_v.cpp:a_mvm"]}
{"id": "C114", "title": "Columns with the input zero change nothing", "statement": "A multiplication over more columns whose inputs are zero returns the same result as one without these columns, whatever weights they hold, through any real converter and also if currents leave its range.", "quantifier": "for all integer and ternary mapping modes, sizes, numbers of added columns, matrices, legal inputs, converters and histories of calls; analog crossbars with ideal cells in exact arithmetic, digital ones in any arithmetic", "why_tests_cant": "no test compares multiplications of different widths; the difference only shows in two of the mappings and with a converter that is coarse or limits the current", "anchors": ["cpp/src/xbar/crossbar.cpp:Crossbar::mvm", "cpp/src/xbar/adc.cpp:ADC::clip,ADC::convert", "cpp/src/mapping/int_mapper/int_i.cpp:d_mvm", "cpp/src/mapping/int_mapper/int_ii.cpp:d_mvm", "cpp/src/mapping/int_mapper/int_iii.cpp:d_mvm", "cpp/src/mapping/int_mapper/int_iv.cpp:d_mvm", "cpp/src/mapping/int_mapper/int_v.cpp:d_mvm", "cpp/src/mapping/tnn_mapper/tnn_i.cpp:d_mvm", "cpp/src/mapping/tnn_mapper/tnn_ii.cpp:d_mvm", "cpp/src/mapping/tnn_mapper/tnn_iii.cpp:d_mvm", "cpp/src/mapping/tnn_mapper/tnn_iv.cpp:d_mvm", "cpp/src/mapping/tnn_mapper/tnn_v.cpp:d_mvm", "cpp/src/mapping/int_mapper/int_i.cpp:a_mvm", "cpp/src/mapping/int_mapper/int_ii.cpp:a_mvm", "cpp/src/mapping/int_mapper/int_iii.cpp:a_mvm", "cpp/src/mapping/int_mapper/int_iv.cpp:a_mvm", "cpp/src/mapping/int_mapper/int_v.cpp:a_mvm", "cpp/src/mapping/tnn_mapper/tnn_i.cpp:a_mvm", "cpp/src/mapping/tnn_mapper/tnn_ii.cpp:a_mvm", "cpp/src/mapping/tnn_mapper/tnn_iii.cpp:a_mvm", "cpp/src/mapping/tnn_mapper/tnn_iv.cpp:a_mvm", "cpp/src/mapping/tnn_mapper/tnn_v.cpp:a_mvm"]}
{"id": "C115", "title": "The signs of a column and of its input can be changed together", "statement": "If the signs of all weights of some columns and of the inputs of these columns are changed, the products stay the same, and a multiplication returns the same result through any real converter, however coarse it is and also if currents leave its range.", "quantifier": "for all mapping modes, sizes, sets of columns, matrices, inputs (legal before and after the change), converters and histories of calls; analog crossbars with ideal cells in exact arithmetic, digital ones in any arithmetic", "why_tests_cant": "no test compares two matrices with the same product; the difference only shows with a converter that is coarse for the currents at hand", "anchors": ["cpp/src/xbar/crossbar.cpp:Crossbar::write,Crossbar::mvm", "cpp/src/xbar/adc.cpp:ADC::clip,ADC::convert", "cpp/src/mapping/int_mapper/int_i.cpp:d_mvm", "cpp/src/mapping/int_mapper/int_ii.cpp:d_mvm", "cpp/src/mapping/int_mapper/int_iii.cpp:d_mvm", "cpp/src/mapping/int_mapper/int_iv.cpp:d_mvm", "cpp/src/mapping/int_mapper/int_v.cpp:d_mvm", "cpp/src/mapping/bnn_mapper/bnn_i.cpp:d_mvm", "cpp/src/mapping/bnn_mapper/bnn_ii.cpp:d_mvm", "cpp/src/mapping/bnn_mapper/bnn_iii.cpp:d_mvm", "cpp/src/mapping/bnn_mapper/bnn_iv.cpp:d_mvm", "cpp/src/mapping/bnn_mapper/bnn_v.cpp:d_mvm", "cpp/src/mapping/bnn_mapper/bnn_vi.cpp:d_mvm", "cpp/src/mapping/tnn_mapper/tnn_i.cpp:d_mvm", "cpp/src/mapping/tnn_mapper/tnn_ii.cpp:d_mvm", "cpp/src/mapping/tnn_mapper/tnn_iii.cpp:d_mvm", "cpp/src/mapping/tnn_mapper/tnn_iv.cpp:d_mvm", "cpp/src/mapping/tnn_mapper/tnn_v.cpp:d_mvm", "cpp/src/mapping/int_mapper/int_i.cpp:a_mvm", "cpp/src/mapping/int_mapper/int_ii.cpp:a_mvm", "cpp/src/mapping/int_mapper/int_iii.cpp:a_mvm", "cpp/src/mapping/int_mapper/int_iv.cpp:a_mvm", "cpp/src/mapping/int_mapper/int_v.cpp:a_mvm", "cpp/src/mapping/bnn_mapper/bnn_i.cpp:a_mvm", "cpp/src/mapping/bnn_mapper/bnn_ii.cpp:a_mvm", "cpp/src/mapping/bnn_mapper/bnn_iii.cpp:a_mvm", "cpp/src/mapping/bnn_mapper/bnn_iv.cpp:a_mvm", "cpp/src/mapping/bnn_mapper/bnn_v.cpp:a_mvm", "cpp/src/mapping/bnn_mapper/bnn_vi.cpp:a_mvm", "cpp/src/mapping/tnn_mapper/tnn_i.cpp:a_mvm", "cpp/src/mapping/tnn_mapper/tnn_ii.cpp:a_mvm", "cpp/src/mapping/tnn_mapper/tnn_iii.cpp:a_mvm", "cpp/src/mapping/tnn_mapper/tnn_iv.cpp:a_mvm", "cpp/src/mapping/tnn_mapper/tnn_v.cpp:a_mvm"]}
{"id": "C116", "title": "Four pairs of mappings do the same up to signs", "statement": "On equal crossbars I_DIFF_W_DIFF_1XB and I_DIFF_W_DIFF_2XB return the same results, and so do BNN_VI and TNN_I on matrices and inputs of -1 and +1; BNN_II returns what BNN_I does if the signs of the matrix and of the inputs are changed, and BNN_IV adds the negated numbers of BNN_III if the signs of the matrix are changed. This holds through any real converter, however coarse it is and also if currents leave its range.", "quantifier": "for all sizes, matrices, inputs, converters and histories of calls of both crossbars; analog crossbars with ideal cells in exact arithmetic", "why_tests_cant": "the tests run each mapping against its own expected product and never compare two mappings on equal currents; the claim covers every converter, also outside its range", "anchors": ["cpp/src/xbar/crossbar.cpp:Crossbar::write,Crossbar::mvm", "cpp/src/xbar/adc.cpp:ADC::clip,ADC::convert", "cpp/src/mapping/int_mapper/int_i.cpp:a_mvm", "cpp/src/mapping/int_mapper/int_ii.cpp:a_mvm", "cpp/src/mapping/int_mapper/int_iii.cpp:a_mvm", "cpp/src/mapping/int_mapper/int_iv.cpp:a_mvm", "cpp/src/mapping/int_mapper/int_v.cpp:a_mvm", "cpp/src/mapping/bnn_mapper/bnn_i.cpp:a_mvm", "cpp/src/mapping/bnn_mapper/bnn_ii.cpp:a_mvm", "cpp/src/mapping/bnn_mapper/bnn_iii.cpp:a_mvm", "cpp/src/mapping/bnn_mapper/bnn_iv.cpp:a_mvm", "cpp/src/mapping/bnn_mapper/bnn_v.cpp:a_mvm", "cpp/src/mapping/bnn_mapper/bnn_vi.cpp:a_mvm", "cpp/src/mapping/tnn_mapper/tnn_i.cpp:a_mvm", "cpp/src/mapping/tnn_mapper/tnn_ii.cpp:a_mvm", "cpp/src/mapping/tnn_mapper/tnn_iii.cpp:a_mvm", "cpp/src/mapping/tnn_mapper/tnn_iv.cpp:a_mvm", "cpp/src/mapping/tnn_mapper/tnn_v.cpp:a_mvm"]}
{"id": "C117", "title": "The opposite matrix adds the opposite numbers", "statement": "If the signs of all weights are changed, a multiplication with the same input adds the negated numbers to the result, also through a real converter.", "quantifier": "for all mapping modes, sizes, matrices, inputs, converters and histories of calls; analog crossbars with ideal cells in exact arithmetic, digital ones in any arithmetic", "why_tests_cant": "no test compares a matrix with its opposite; the difference only shows for currents halfway between two levels of the converter or in the mappings that do not treat both cells of a weight alike", "anchors": ["cpp/src/xbar/crossbar.cpp:Crossbar::write,Crossbar::mvm", "cpp/src/xbar/adc.cpp:ADC::clip,ADC::convert", "cpp/src/mapping/int_mapper/int_i.cpp:d_mvm", "cpp/src/mapping/int_mapper/int_ii.cpp:d_mvm", "cpp/src/mapping/int_mapper/int_iii.cpp:d_mvm", "cpp/src/mapping/int_mapper/int_iv.cpp:d_mvm", "cpp/src/mapping/int_mapper/int_v.cpp:d_mvm", "cpp/src/mapping/bnn_mapper/bnn_i.cpp:d_mvm", "cpp/src/mapping/bnn_mapper/bnn_ii.cpp:d_mvm", "cpp/src/mapping/bnn_mapper/bnn_iii.cpp:d_mvm", "cpp/src/mapping/bnn_mapper/bnn_iv.cpp:d_mvm", "cpp/src/mapping/bnn_mapper/bnn_v.cpp:d_mvm", "cpp/src/mapping/bnn_mapper/bnn_vi.cpp:d_mvm", "cpp/src/mapping/tnn_mapper/tnn_i.cpp:d_mvm", "cpp/src/mapping/tnn_mapper/tnn_ii.cpp:d_mvm", "cpp/src/mapping/tnn_mapper/tnn_iii.cpp:d_mvm", "cpp/src/mapping/tnn_mapper/tnn_iv.cpp:d_mvm", "cpp/src/mapping/tnn_mapper/tnn_v.cpp:d_mvm", "cpp/src/mapping/int_mapper/int_i.cpp:a_mvm", "cpp/src/mapping/int_mapper/int_ii.cpp:a_mvm", "cpp/src/mapping/int_mapper/int_iii.cpp:a_mvm", "cpp/src/mapping/int_mapper/int_iv.cpp:a_mvm", "cpp/src/mapping/int_mapper/int_v.cpp:a_mvm", "cpp/src/mapping/bnn_mapper/bnn_i.cpp:a_mvm", "cpp/src/mapping/bnn_mapper/bnn_ii.cpp:a_mvm", "cpp/src/mapping/bnn_mapper/bnn_iii.cpp:a_mvm", "cpp/src/mapping/bnn_mapper/bnn_iv.cpp:a_mvm", "cpp/src/mapping/bnn_mapper/bnn_v.cpp:a_mvm", "cpp/src/mapping/bnn_mapper/bnn_vi.cpp:a_mvm", "cpp/src/mapping/tnn_mapper/tnn_i.cpp:a_mvm", "cpp/src/mapping/tnn_mapper/tnn_ii.cpp:a_mvm", "cpp/src/mapping/tnn_mapper/tnn_iii.cpp:a_mvm", "cpp/src/mapping/tnn_mapper/tnn_iv.cpp:a_mvm", "cpp/src/mapping/tnn_mapper/tnn_v.cpp:a_mvm"]}
{"id": "C118", "title": "More input bits than necessary change nothing", "statement": "If all inputs can be represented with I_BIT bits, a crossbar that is configured with more input bits and holds the same matrix returns the same result, also through a real converter.", "quantifier": "for all mapping modes, numbers of bits, sizes, matrices, inputs, converters with the level zero and histories of calls; analog crossbars with ideal cells in exact arithmetic, digital ones in any arithmetic", "why_tests_cant": "the tests use one number of input bits per case; the difference only shows through a coarse converter", "anchors": ["cpp/src/xbar/crossbar.cpp:Crossbar::write,Crossbar::mvm", "cpp/src/xbar/adc.cpp:ADC::clip,ADC::convert", "cpp/src/mapping/int_mapper/int_i.cpp:d_mvm", "cpp/src/mapping/int_mapper/int_ii.cpp:d_mvm", "cpp/src/mapping/int_mapper/int_iii.cpp:d_mvm", "cpp/src/mapping/int_mapper/int_iv.cpp:d_mvm", "cpp/src/mapping/int_mapper/int_v.cpp:d_mvm", "cpp/src/mapping/int_mapper/int_i.cpp:a_mvm", "cpp/src/mapping/int_mapper/int_ii.cpp:a_mvm", "cpp/src/mapping/int_mapper/int_iii.cpp:a_mvm", "cpp/src/mapping/int_mapper/int_iv.cpp:a_mvm", "cpp/src/mapping/int_mapper/int_v.cpp:a_mvm"]}
{"id": "C119", "title": "More weight bits than necessary change nothing", "statement": "If all weights can be represented with W_BIT bits, a crossbar that is configured with one more slice for higher bits and holds the same matrix returns the same result, also through a real converter.", "quantifier": "for all integer mappings, slices, sizes, matrices, inputs, converters with the level zero and histories of calls; analog crossbars with ideal cells in exact arithmetic, digital ones in any arithmetic", "why_tests_cant": "the tests use one way to slice the weights per case; the difference only shows through a coarse converter", "anchors": ["cpp/src/xbar/crossbar.cpp:Crossbar::write,Crossbar::mvm", "cpp/src/xbar/adc.cpp:ADC::clip,ADC::convert", "cpp/src/mapping/int_mapper/int_i.cpp:d_mvm", "cpp/src/mapping/int_mapper/int_ii.cpp:d_mvm", "cpp/src/mapping/int_mapper/int_iii.cpp:d_mvm", "cpp/src/mapping/int_mapper/int_iv.cpp:d_mvm", "cpp/src/mapping/int_mapper/int_v.cpp:d_mvm", "cpp/src/mapping/int_mapper/int_i.cpp:a_mvm", "cpp/src/mapping/int_mapper/int_ii.cpp:a_mvm", "cpp/src/mapping/int_mapper/int_iii.cpp:a_mvm", "cpp/src/mapping/int_mapper/int_iv.cpp:a_mvm", "cpp/src/mapping/int_mapper/int_v.cpp:a_mvm"]}
{"id": "C120", "title": "A row of zeros adds nothing", "statement": "If all weights of a row are zero, a multiplication leaves its entry of the result buffer as it was, also through a real converter.", "quantifier": "for all mapping modes with the weight zero, sizes, matrices, inputs, converters with the level zero and histories of calls; analog crossbars with ideal cells in exact arithmetic, digital ones in any arithmetic", "why_tests_cant": "no test has a row of zeros with a coarse converter; the cells of a zero weight conduct, so the result depends on how the mapping cancels their currents", "anchors": ["cpp/src/xbar/crossbar.cpp:Crossbar::write,Crossbar::mvm", "cpp/src/xbar/adc.cpp:ADC::clip,ADC::convert", "cpp/src/mapping/int_mapper/int_i.cpp:d_mvm", "cpp/src/mapping/int_mapper/int_ii.cpp:d_mvm", "cpp/src/mapping/int_mapper/int_iii.cpp:d_mvm", "cpp/src/mapping/int_mapper/int_iv.cpp:d_mvm", "cpp/src/mapping/int_mapper/int_v.cpp:d_mvm", "cpp/src/mapping/tnn_mapper/tnn_i.cpp:d_mvm", "cpp/src/mapping/tnn_mapper/tnn_ii.cpp:d_mvm", "cpp/src/mapping/tnn_mapper/tnn_iii.cpp:d_mvm", "cpp/src/mapping/tnn_mapper/tnn_iv.cpp:d_mvm", "cpp/src/mapping/tnn_mapper/tnn_v.cpp:d_mvm", "cpp/src/mapping/int_mapper/int_i.cpp:a_mvm", "cpp/src/mapping/int_mapper/int_ii.cpp:a_mvm", "cpp/src/mapping/int_mapper/int_iii.cpp:a_mvm", "cpp/src/mapping/int_mapper/int_iv.cpp:a_mvm", "cpp/src/mapping/int_mapper/int_v.cpp:a_mvm", "cpp/src/mapping/tnn_mapper/tnn_i.cpp:a_mvm", "cpp/src/mapping/tnn_mapper/tnn_ii.cpp:a_mvm", "cpp/src/mapping/tnn_mapper/tnn_iii.cpp:a_mvm", "cpp/src/mapping/tnn_mapper/tnn_iv.cpp:a_mvm", "cpp/src/mapping/tnn_mapper/tnn_v.cpp:a_mvm"]}
