[
 [
  "C01",
  "proved",
  [
   "C01_roundtrip"
  ],
  ""
 ],
 [
  "C02",
  "partial",
  [
   "C02_rejects_partial",
   "C02_accepts_rect",
   "C02_counterexample"
  ],
  "False as stated: a scalar standing beside lists is accepted (C02_counterexample). Proved for the remaining non-rectangular inputs."
 ],
 [
  "C03",
  "proved",
  [
   "C03_full",
   "C03_full_like",
   "C03_zeros_like",
   "C03_ones_like",
   "C03_arange"
  ],
  ""
 ],
 [
  "C04",
  "proved",
  [
   "C04_bijection"
  ],
  ""
 ],
 [
  "C05",
  "proved",
  [
   "C05_in_base",
   "C05_tolist"
  ],
  ""
 ],
 [
  "C06",
  "proved",
  [
   "C06_raises",
   "C06_transpose",
   "C06_T"
  ],
  ""
 ],
 [
  "C07",
  "proved",
  [
   "C07_inverse",
   "C07_argsort",
   "C07_transpose_argsort",
   "C07_TT"
  ],
  ""
 ],
 [
  "C08",
  "proved",
  [
   "C08_getitem"
  ],
  ""
 ],
 [
  "C09",
  "partial",
  [
   "C09_reshape_partial",
   "C09_counterexample",
   "C09_counterexample_grad",
   "C09_exact",
   "C09_iff"
  ],
  "False as stated for a contiguous view with non-zero offset (C09_counterexample); proved for every other array. C09_exact gives the elements read in every case and C09_iff says exactly when they are right."
 ],
 [
  "C10",
  "partial",
  [
   "C10_rejects_partial",
   "C10_rejects_odd",
   "C10_counterexample"
  ],
  "False as stated for an even number of negative dimensions (C10_counterexample); proved otherwise."
 ],
 [
  "C11",
  "proved",
  [
   "C11_raises",
   "C11_shape",
   "C11_symmetric"
  ],
  ""
 ],
 [
  "C12",
  "partial",
  [
   "C12_broadcast_to_partial",
   "C12_never_raises",
   "C12_counterexample"
  ],
  "The element rule is proved; the rejection half is false: broadcast_to never raises (C12_never_raises, C12_counterexample)."
 ],
 [
  "C13",
  "proved",
  [
   "C13_unary",
   "C13_scalar",
   "C13_binary"
  ],
  ""
 ],
 [
  "C14",
  "proved",
  [
   "C14_sum"
  ],
  ""
 ],
 [
  "C15",
  "partial",
  [
   "C15_rejects_partial",
   "C15_counterexample",
   "C15_exact"
  ],
  "False as stated (C15_counterexample: axes below -ndim wrap); proved for arrays without dimensions. Exactly: an axis argument raises only for arrays without dimensions (C15_rejects_partial is an equivalence); otherwise axes are taken modulo ndim (C15_exact)."
 ],
 [
  "C16",
  "partial",
  [
   "C16_raises",
   "C16_pad_partial",
   "C16_counterexample"
  ],
  "False as stated for negative dim (C16_counterexample); proved for non-negative dim."
 ],
 [
  "C17",
  "partial",
  [
   "C17_dilate_partial",
   "C17_counterexample",
   "C17_empty"
  ],
  "False as stated for negative dim and for zero-length axes; proved otherwise. C17_empty: every dilation of an empty axis gives a negative dimension."
 ],
 [
  "C18",
  "proved",
  [
   "C18_contiguous",
   "C18_same"
  ],
  ""
 ],
 [
  "C19",
  "proved",
  [
   "C19_compiler_correct",
   "C19_total"
  ],
  ""
 ],
 [
  "C20",
  "proved",
  [
   "C20_fusion_invisible",
   "C20_code_decides"
  ],
  ""
 ],
 [
  "C21",
  "proved",
  [
   "C21_order",
   "C21_launches"
  ],
  ""
 ],
 [
  "C22",
  "proved",
  [
   "C22_memory_safe",
   "C22_reads"
  ],
  ""
 ],
 [
  "C23",
  "proved",
  [
   "C23_parallel"
  ],
  "Interleaving of the stores of whole iterations' traces; kernels never read out (C22_reads), so finer interleavings are covered."
 ],
 [
  "C24",
  "proved",
  [
   "C24_launch"
  ],
  ""
 ],
 [
  "C25",
  "partial",
  [
   "C25_same_key_partial",
   "C25_plain_partial",
   "C25_transparent_partial",
   "C25_counterexample_pad",
   "C25_counterexample_sharing",
   "C25_counterexample_shape"
  ],
  "The property is false of the code in three ways, each shown at the API: two pads/dilates of the same output shape share a key (wrong result), the key does not say which kernel results coincide (TypeError), nor their shapes (wrong result). Proved: the key identifies everything else."
 ],
 [
  "C26",
  "proved",
  [
   "C26_stable",
   "C26_materialized",
   "C26_constant",
   "C26_view"
  ],
  ""
 ],
 [
  "C27",
  "proved",
  [
   "C27_immutable",
   "C27_buffers"
  ],
  ""
 ],
 [
  "C28",
  "partial",
  [
   "C28_derivative_partial",
   "C28_gradient_partial",
   "C28_counterexample",
   "C33_any_state_partial"
  ],
  "Reverse mode is correct in exact real arithmetic for every graph of operations whose rule is right (BackwardOK), at every point of differentiability. False for broadcasts to the same shape (counterexample). "
 ],
 [
  "C29",
  "partial",
  [
   "C29_shapes_partial",
   "C29_counterexample",
   "C29_counterexample_pad"
  ],
  "Proved for graphs without same-shape broadcasts, negative pads and empty strided slices; false for the first two (counterexamples)."
 ],
 [
  "C30",
  "proved",
  [
   "C30_accumulate"
  ],
  "For BackwardOK graphs, where backward is defined (see C29/C31)."
 ],
 [
  "C31",
  "partial",
  [
   "C31_total_partial",
   "C31_counterexample"
  ],
  "Proved for BackwardOK graphs; false when a same-shape broadcast is followed by a reshape (counterexample)."
 ],
 [
  "C32",
  "partial",
  [
   "C32_adjoint_partial",
   "C32_backward_partial",
   "C32_counterexample"
  ],
  "Adjoint identity over any commutative ring for every linear operation; false for broadcasts to the same shape (counterexample)."
 ],
 [
  "C33",
  "partial",
  [
   "C33_linear_partial",
   "C33_counterexample",
   "C33_any_state_partial"
  ],
  "False as stated: gradients of computed arrays are kept (counterexample); proved when they are cleared before each call. C33_any_state_partial: in exact real arithmetic, what backward() adds in any state, whatever gradients exist: the derivative of the sum of the computed arrays weighted with the gradients they started with."
 ],
 [
  "C34",
  "partial",
  [
   "C34_same_shape_partial",
   "C34_counterexample",
   "C34_exact"
  ],
  "False for every shape without a dimension 1 (counterexample); proved for the others. C34_exact gives what the code returns in all the remaining cases (one element, the total sum)."
 ],
 [
  "C35",
  "proved",
  [
   "C35_scoped",
   "C35_names",
   "C35_reserved"
  ],
  "Scoping as a block-structured check on the kernel tree; names as character strings; none is a keyword or library identifier of the target languages."
 ],
 [
  "C36",
  "proved",
  [
   "C36_cpu",
   "C36_gpu"
  ],
  "Unbounded integers: overflow of C's int/int64_t is not modelled. A third, strict arithmetic faults wherever Python and C differ; kernels run to the end under it."
 ],
 [
  "C37",
  "proved",
  [
   "C37_text",
   "C37_parse"
  ],
  "The text model writes the source character by character as codegen.py and the language specifications do; the parser is an independent specification of the Python/C/CUDA subset. Trusted: that the subset grammar agrees with the real languages; the C preprocessor, macros and attributes are not modelled; the kernel name is kern_ plus 16 hexadecimal digits."
 ],
 [
  "C38",
  "proved",
  [
   "C38_no_recompute",
   "C38_which_kernels",
   "C38_exact"
  ],
  " C38_exact: for arrays that perform an operation, exactly which get a kernel; for views only the upper bound holds (try_fuse is order dependent there, see the example in Props/Compile)."
 ],
 [
  "C39",
  "proved",
  [
   "C39_split",
   "C39_code"
  ],
  ""
 ],
 [
  "C40",
  "proved",
  [
   "C40_reorder",
   "C40_unknown"
  ],
  ""
 ],
 [
  "C41",
  "proved",
  [
   "C41_discipline",
   "C41_contents"
  ],
  ""
 ],
 [
  "C42",
  "partial",
  [
   "C42_derived",
   "C42_constant",
   "C42_dtypes",
   "C42_ones_like_partial",
   "C42_zeros_like_partial",
   "C42_counterexample_zeros",
   "C42_counterexample_empty",
   "C42_full_exact",
   "C42_ones_like_exact",
   "C42_zeros_like_exact",
   "C42_like_iff"
  ],
  "Derived arrays: proved for every call. ones_like: proved for non-empty models. False in the code for zeros_like of a float array (int64) and for empty models (float64): counterexamples. The _exact theorems give the dtype of every factory in every case; C42_like_iff says exactly when it is the one of the model array."
 ],
 [
  "C43",
  "partial",
  [
   "C43_readable_partial",
   "C43_fails_partial",
   "C43_counterexample"
  ],
  "The reshaped scalar can be created and read back; computing with it raises TypeError in the code (algo.py reduce of an empty list), proved in general and by counterexample."
 ],
 [
  "C44",
  "proved",
  [
   "C44_accounting"
  ],
  ""
 ],
 [
  "C45",
  "proved",
  [
   "C45_classes_partition",
   "C45_members"
  ],
  ""
 ],
 [
  "C46",
  "proved",
  [
   "C46_convert_total"
  ],
  "Recursion depth is the model's fuel: position of the array plus two."
 ],
 [
  "C47",
  "proved",
  [
   "C47_interface"
  ],
  "For the freshly generated kernel of every function of every materialize call; a cached kernel has the same code (C25)."
 ],
 [
  "C48",
  "proved",
  [
   "C48_cpu",
   "C48_gpu",
   "C48_python",
   "C48_c"
  ],
  "Semantics of the three languages on the parsed text; numbers abstract (laws IntLaws, Agrees) in C48_cpu/C48_gpu, concrete Python and C numbers over any floating point arithmetic in C48_python/C48_c. C and CUDA: arrays of one element type."
 ],
 [
  "C49",
  "proved",
  [
   "C49_index_cpu",
   "C49_index_gpu",
   "C49_c",
   "C49_cuda",
   "C49_float_c",
   "C49_float_cuda"
  ],
  "Bounded index arithmetic. The bound is sufficient, not shown necessary. C49_float_* need the operations of the floating point arithmetic to be total, as in IEEE 754, and no % (which the API does not offer)."
 ],
 [
  "C50",
  "partial",
  [
   "C50_outcome",
   "C50_shape",
   "C50_agree_partial",
   "C50_same",
   "C50_int",
   "C50_counterexample_division",
   "C50_counterexample_gradient"
  ],
  "outcome, shapes and dtypes of calls: same on all backends. Values: proved when the element operations of the two backends correspond (C50_agree_partial), for equal arithmetic (C50_same), and for Python integers against C/CUDA int64 while results stay in 64 bits (C50_int). As stated false of the code: integer / truncates in C, the gradient of a float power has int64 variables in C (counterexamples)."
 ],
 [
  "C51",
  "proved",
  [
   "C51_keeps",
   "C51_safe",
   "C51_stays",
   "C51_recover",
   "C51_incomplete",
   "C51_counterexample",
   "C51_counterexample_gpu",
   "C51_safe_gpu",
   "C51_stays_gpu",
   "C51_recover_gpu",
   "C72_counterexample",
   "C51_discipline_gpu"
  ],
  "Stated and proved for CPU backends (C51_keeps: every backend). C51_counterexample: reading the interrupted array itself before materializing again returns zeros without an exception (this is the last clause of the property; the hypothesis cannot be dropped). C51_counterexample_gpu: on the GPU backend reading the interrupted array before materializing again makes the wrong data permanent. On GPU backends: C51_safe_gpu, C51_stays_gpu, C51_recover_gpu, for programs that do not read an array while its data are incomplete. Not covered: on the Python backend, an exception while the source of a kernel is being generated (C72_counterexample). C51_discipline_gpu: the device memory discipline of C05/C55 (no double allocation, kernels read only initialised memory, only results are copied back) holds in histories with interruptions."
 ],
 [
  "C52",
  "proved",
  [
   "C52_is",
   "C52_keeps",
   "C52_stable",
   "C52_counterexample"
  ],
  "Switch = backend.reset + materialize.reset, backends with the same arithmetic. C52_counterexample delimits C52_stable: an array computed but never read on the GPU is not readable after switching to a CPU backend until it is materialized again."
 ],
 [
  "C53",
  "partial",
  [
   "C53_schedule_partial",
   "C53_code",
   "C53_counterexample_tail",
   "C53_counterexample_nested",
   "C53_counterexample_reduce",
   "C53_counterexample_reorder",
   "C53_ceil"
  ],
  "False in the code as stated: with a factor that does not divide the extent the tail guard returns from the whole kernel, nested splits and splits of reduction loops read undeclared variables, reorder across kinds swaps variables but not kinds (counterexamples proved). Proved for all sequences of modes, dividing splits of output loops (each loop once) and reorderings of output loops, under every interleaving. C53_ceil: the floating point division in split (sched.py:74) gives the exact number of blocks for every loop of fewer than 2^53 iterations."
 ],
 [
  "C54",
  "proved",
  [
   "C54_strided",
   "C54_value"
  ],
  "Holds without exception; C54_value links it to the value of the array when no view chain contains a reshape of a view with an offset."
 ],
 [
  "C55",
  "proved",
  [
   "C55_invisible",
   "C55_dead",
   "C55_footprint",
   "C55_discipline",
   "C55_computes"
  ],
  "Collection is modelled per array (data, gradient reference and device memory go together); the record of how a collected array was computed stays in the model's graph, but C55_dead shows nothing refers to it. A DevBuff is freed through the backend that is current when it is collected (buffer.py:22); C55 is about one backend."
 ],
 [
  "C56",
  "partial",
  [
   "C56_dims",
   "C56_accepted_iff",
   "C56_refused",
   "C56_partial",
   "C56_counterexample"
  ],
  "False as stated: grid.y and grid.z are limited to 65535, and the schedule puts whole dimensions there; C56_counterexample: shape (1, 70000, 1) raises. C56_dims: exact launch sizes as a function of the shape, for all ranks. C56_accepted_iff: exactly which shapes are accepted. C56_refused: the others make materialize raise. C56_partial: all dimensions between 1 and 65535 suffice. The numbers of the limits are from the CUDA programming guide, not from the code."
 ],
 [
  "C57",
  "proved",
  [
   "C57_no_collision",
   "C57_compiler_correct"
  ],
  "For sessions that only materialize one-kernel arrays the NoCollision hypothesis of the other theorems is discharged; the condition is stated on the operations the program performed. NoOffsetReshape (defect C09) remains a hypothesis of reading back."
 ],
 [
  "C58",
  "partial",
  [
   "C58_key_size",
   "C58_counterexample",
   "C58_partial"
  ],
  "false in general (exponential, C58_counterexample for every n); exact size formula C58_key_size; linear bound where intermediate results are used once C58_partial"
 ],
 [
  "C59",
  "proved",
  [
   "C59_keeps",
   "C59_retry",
   "C59_needs_clearing"
  ],
  "all other properties also hold in histories with interrupted backward calls (constructor stopped of Reachable/Runs/RunsB/RunsX/Tracks/ReachableSimple); garbage-collected histories (C55) and two-backend histories (C36/C50) do not include interruptions"
 ],
 [
  "C60",
  "proved",
  [
   "C60_text",
   "C60_plain",
   "C60_lookup"
  ],
  "MD5 itself is not modelled: the hypothesis DigestOK of C60_lookup says that the texts involved have different digests."
 ],
 [
  "C61",
  "proved",
  [
   "C61_total",
   "C61_read",
   "C61_value",
   "C61_readable"
  ],
  "Printing of a single number is a parameter; C61_value leaves out reshapes of views with an offset (C09)."
 ],
 [
  "C62",
  "partial",
  [
   "C62_nesting",
   "C62_conditionals",
   "C62_partial",
   "C62_counterexample_loops",
   "C62_counterexample_blocks"
  ],
  "False as stated: for every n a program on one-element arrays needs n nested loops (C62_counterexample_loops), and n pads need n nested conditionals (C62_counterexample_blocks). C62_nesting and C62_conditionals give the exact nesting; C62_partial is the property for arrays within the limits."
 ],
 [
  "C63",
  "partial",
  [
   "C63_partial",
   "C63_partial_backward",
   "C63_calls",
   "C63_counterexample"
  ],
  "False as stated in the code (recursive functions, Python's recursion limit): C63_counterexample. C63_partial and C63_partial_backward: holds whenever the longest chain of operations is below the limit."
 ],
 [
  "C64",
  "proved",
  [
   "C64_step",
   "C64_session",
   "C64_end_to_end",
   "C64_suits_python",
   "C64_suits_c"
  ],
  "sessions at the level of source text simulate the sessions all other properties are about; Python needs no condition on the numbers, C/CUDA one element type (C50 shows what happens otherwise)"
 ],
 [
  "C65",
  "partial",
  [
   "C65_materialize_partial",
   "C65_shows",
   "C65_keeps",
   "C65_stable",
   "C65_when",
   "C65_reset",
   "C65_counterexample_c_python",
   "C65_counterexample_scalar"
  ],
  "false as stated: cached kernels of another executor are handed to the current one (backend.reset does not empty the cache); proved: exactly when materialize raises, that everything is right otherwise, and when it can happen"
 ],
 [
  "C66",
  "partial",
  [
   "C66_safe_partial",
   "C66_refused",
   "C66_keeps",
   "C66_incomplete",
   "C66_stays",
   "C66_recover",
   "C66_reset",
   "C66_counterexample_zero",
   "C72_counterexample"
  ],
  "False in the code: an array whose first computation was refused by the executor keeps a zero-filled buffer, and tolist() returns zeros (C66_counterexample_zero: sum read as 0 instead of 21). Proved: all other arrays are read right (C66_safe_partial, C66_stays), incomplete ones have only right elements or zeros (C66_incomplete), arrays never change (C66_keeps), the state left behind is computed exactly (C66_refused), and materialize (C66_recover) or materialize.reset() then materialize (C66_reset) repair everything. CPU backends. Not covered, as in C51: on the Python backend, an exception while the source of a kernel is being generated (C72_counterexample)."
 ],
 [
  "C67",
  "proved",
  [
   "C67_same",
   "C67_tree",
   "C67_kernels",
   "C67_source",
   "C67_exponential"
  ],
  "Debug output modelled line by line; example prints the complete output of one materialize() call. Output is assumed to be writable; numbers are printed by an arbitrary total function."
 ],
 [
  "C68",
  "proved",
  [
   "C68_schedule",
   "C68_runs",
   "C68_auto",
   "C68_counterexample_same",
   "C68_counterexample_tail",
   "C68_counterexample_reduce"
  ],
  "Arithmetic in kernels unbounded here (C49 treats limits for the automatic schedule); whether the driver accepts the launch is C56."
 ],
 [
  "C69",
  "partial",
  [
   "C69_computes_partial",
   "C69_keeps",
   "C69_stable",
   "C69_memory",
   "C69_counterexample_read",
   "C69_counterexample_free"
  ],
  "Proved under the condition that a CUDA context is only started when no array has a device pointer; false without it (counterexamples: an array reads another array's elements after backend.reset, and its collection frees the other's block)."
 ],
 [
  "C70",
  "partial",
  [
   "C70_step",
   "C70_session",
   "C70_suits",
   "C70_value",
   "C70_int_partial",
   "C70_counterexample_wraps",
   "C70_counterexample_mixed"
  ],
  "Proved for every program in which the arrays computed are made of arrays of one element type (int64 with elements in 64 bits, or float64 with floating point elements). Missing: mixed element types and integers outside 64 bits, for which the claim is false (two counterexamples in the code as it is)."
 ],
 [
  "C71",
  "partial",
  [
   "C71_call",
   "C71_tolist",
   "C71_state",
   "C71_continue_partial",
   "C71_counterexample",
   "C71_may_read"
  ],
  "False in the code when a kernel of the program has the cache key of a different kernel compiled for other code (C25): C71_counterexample. Proved with that excluded (C71_continue_partial); calls, tolist and state without any condition on keys beyond those under which the two histories were run. The program's own backward is not interrupted in this theorem (the other code's may be)."
 ],
 [
  "C72",
  "partial",
  [
   "C72_fresh",
   "C72_when",
   "C72_c",
   "C72_python_partial",
   "C72_forever",
   "C72_safe",
   "C72_computes_partial",
   "C72_counterexample"
  ],
  "False on the Python backend: C72_counterexample. True on Clang and CUDA: C72_c (with C72_computes_partial, whose SyntaxError case needs Python with a block open). On Python exactly the calls that need a new kernel after an exception strictly between the first nest and the last unnest (C72_when) fail, for good (C72_python_partial, C72_forever). A materialize that raises SyntaxError half-way is the case of Stopped in which generation ran to its end; backward calls are not interrupted here."
 ],
 [
  "C73",
  "partial",
  [
   "C73_computes_partial",
   "C73_keeps",
   "C73_reads",
   "C73_returns",
   "C73_alone",
   "C73_turns",
   "C73_counterexample",
   "C73_counterexample_fill",
   "C73_computes_kernels_partial",
   "C73_reads_kernels",
   "C73_keeps_kernels",
   "C73_returns_kernels",
   "C73_alone_kernels"
  ],
  "CPU backends; proved for all interleavings in which finding a kernel (cache lookup, generation if there is none) is one step and starting it (filling its parameters) another. False without that restriction: C73_counterexample (two generations at once on the shared generator: a kernel that computes something else), C73_counterexample_fill (backend.py:35-36 test-then-set). C73_*_kernels: the same for any backend, including GPUs, with each kernel (from cache lookup to the end of its run) as one step. Missing: on GPUs, interruption within a kernel launch (allocation, copying). "
 ],
 [
  "C74",
  "proved",
  [
   "C74_invisible",
   "C74_dead",
   "C74_safe",
   "C74_recover",
   "C74_discipline",
   "C74_noleak"
  ],
  "Every backend. On a GPU the program does not read an array while its data are incomplete (C51_counterexample_gpu: such a read makes the incomplete data permanent). C74_discipline: the same with collection: no use after free, no double free, and allocated device memory belongs to arrays that have not been collected. C74_noleak: at any time the interpreter can collect everything dead, after which all allocated device memory belongs to live arrays (none if the program dropped everything), also after interruptions."
 ]
]