{
 "claims": [
  {
   "property": "C01",
   "status": "proved",
   "theorems": [
    "Whale.Props.C01_roundtrip"
   ],
   "note": ""
  },
  {
   "property": "C02",
   "status": "partial",
   "theorems": [
    "Whale.Props.C02_rejects_partial",
    "Whale.Props.C02_accepts_rect",
    "Whale.Props.C02_counterexample"
   ],
   "note": "False as stated: a scalar standing beside lists is accepted (C02_counterexample). Proved for the remaining non-rectangular inputs."
  },
  {
   "property": "C03",
   "status": "proved",
   "theorems": [
    "Whale.Props.C03_full",
    "Whale.Props.C03_full_like",
    "Whale.Props.C03_zeros_like",
    "Whale.Props.C03_ones_like",
    "Whale.Props.C03_arange"
   ],
   "note": ""
  },
  {
   "property": "C04",
   "status": "proved",
   "theorems": [
    "Whale.Props.C04_bijection"
   ],
   "note": ""
  },
  {
   "property": "C05",
   "status": "proved",
   "theorems": [
    "Whale.Props.C05_in_base",
    "Whale.Props.C05_tolist"
   ],
   "note": ""
  },
  {
   "property": "C06",
   "status": "proved",
   "theorems": [
    "Whale.Props.C06_raises",
    "Whale.Props.C06_transpose",
    "Whale.Props.C06_T"
   ],
   "note": ""
  },
  {
   "property": "C07",
   "status": "proved",
   "theorems": [
    "Whale.Props.C07_inverse",
    "Whale.Props.C07_argsort",
    "Whale.Props.C07_transpose_argsort",
    "Whale.Props.C07_TT"
   ],
   "note": ""
  },
  {
   "property": "C08",
   "status": "proved",
   "theorems": [
    "Whale.Props.C08_getitem"
   ],
   "note": ""
  },
  {
   "property": "C09",
   "status": "partial",
   "theorems": [
    "Whale.Props.C09_reshape_partial",
    "Whale.Props.C09_counterexample",
    "Whale.Props.C09_counterexample_grad",
    "Whale.Props.C09_exact",
    "Whale.Props.C09_iff"
   ],
   "note": "False as stated for a contiguous view with non-zero offset (C09_counterexample); proved for every other array. C09_exact gives the elements read in every case and C09_iff says exactly when they are right."
  },
  {
   "property": "C10",
   "status": "partial",
   "theorems": [
    "Whale.Props.C10_rejects_partial",
    "Whale.Props.C10_rejects_odd",
    "Whale.Props.C10_counterexample"
   ],
   "note": "False as stated for an even number of negative dimensions (C10_counterexample); proved otherwise."
  },
  {
   "property": "C11",
   "status": "proved",
   "theorems": [
    "Whale.Props.C11_raises",
    "Whale.Props.C11_shape",
    "Whale.Props.C11_symmetric"
   ],
   "note": ""
  },
  {
   "property": "C12",
   "status": "partial",
   "theorems": [
    "Whale.Props.C12_broadcast_to_partial",
    "Whale.Props.C12_never_raises",
    "Whale.Props.C12_counterexample"
   ],
   "note": "The element rule is proved; the rejection half is false: broadcast_to never raises (C12_never_raises, C12_counterexample)."
  },
  {
   "property": "C13",
   "status": "proved",
   "theorems": [
    "Whale.Props.C13_unary",
    "Whale.Props.C13_scalar",
    "Whale.Props.C13_binary"
   ],
   "note": ""
  },
  {
   "property": "C14",
   "status": "proved",
   "theorems": [
    "Whale.Props.C14_sum"
   ],
   "note": ""
  },
  {
   "property": "C15",
   "status": "partial",
   "theorems": [
    "Whale.Props.C15_rejects_partial",
    "Whale.Props.C15_counterexample",
    "Whale.Props.C15_exact"
   ],
   "note": "False as stated (C15_counterexample: axes below -ndim wrap); proved for arrays without dimensions. Exactly: an axis argument raises only for arrays without dimensions (C15_rejects_partial is an equivalence); otherwise axes are taken modulo ndim (C15_exact)."
  },
  {
   "property": "C16",
   "status": "partial",
   "theorems": [
    "Whale.Props.C16_raises",
    "Whale.Props.C16_pad_partial",
    "Whale.Props.C16_counterexample"
   ],
   "note": "False as stated for negative dim (C16_counterexample); proved for non-negative dim."
  },
  {
   "property": "C17",
   "status": "partial",
   "theorems": [
    "Whale.Props.C17_dilate_partial",
    "Whale.Props.C17_counterexample",
    "Whale.Props.C17_empty"
   ],
   "note": "False as stated for negative dim and for zero-length axes; proved otherwise. C17_empty: every dilation of an empty axis gives a negative dimension."
  },
  {
   "property": "C18",
   "status": "proved",
   "theorems": [
    "Whale.Props.C18_contiguous",
    "Whale.Props.C18_same"
   ],
   "note": ""
  },
  {
   "property": "C19",
   "status": "proved",
   "theorems": [
    "Whale.Props.C19_compiler_correct",
    "Whale.Props.C19_total"
   ],
   "note": ""
  },
  {
   "property": "C20",
   "status": "proved",
   "theorems": [
    "Whale.Props.C20_fusion_invisible",
    "Whale.Props.C20_code_decides"
   ],
   "note": ""
  },
  {
   "property": "C21",
   "status": "proved",
   "theorems": [
    "Whale.Props.C21_order",
    "Whale.Props.C21_launches"
   ],
   "note": ""
  },
  {
   "property": "C22",
   "status": "proved",
   "theorems": [
    "Whale.Props.C22_memory_safe",
    "Whale.Props.C22_reads"
   ],
   "note": ""
  },
  {
   "property": "C23",
   "status": "proved",
   "theorems": [
    "Whale.Props.C23_parallel"
   ],
   "note": "Interleaving of the stores of whole iterations' traces; kernels never read out (C22_reads), so finer interleavings are covered."
  },
  {
   "property": "C24",
   "status": "proved",
   "theorems": [
    "Whale.Props.C24_launch"
   ],
   "note": ""
  },
  {
   "property": "C25",
   "status": "partial",
   "theorems": [
    "Whale.Props.C25_same_key_partial",
    "Whale.Props.C25_plain_partial",
    "Whale.Props.C25_transparent_partial",
    "Whale.Props.C25_counterexample_pad",
    "Whale.Props.C25_counterexample_sharing",
    "Whale.Props.C25_counterexample_shape"
   ],
   "note": "The property is false of the code in three ways, each shown at the API: two pads/dilates of the same output shape share a key (wrong result), the key does not say which kernel results coincide (TypeError), nor their shapes (wrong result). Proved: the key identifies everything else."
  },
  {
   "property": "C26",
   "status": "proved",
   "theorems": [
    "Whale.Props.C26_stable",
    "Whale.Props.C26_materialized",
    "Whale.Props.C26_constant",
    "Whale.Props.C26_view"
   ],
   "note": ""
  },
  {
   "property": "C27",
   "status": "proved",
   "theorems": [
    "Whale.Props.C27_immutable",
    "Whale.Props.C27_buffers"
   ],
   "note": ""
  },
  {
   "property": "C28",
   "status": "partial",
   "theorems": [
    "Whale.Props.C28_derivative_partial",
    "Whale.Props.C28_gradient_partial",
    "Whale.Props.C28_counterexample",
    "Whale.Props.C33_any_state_partial"
   ],
   "note": "Reverse mode is correct in exact real arithmetic for every graph of operations whose rule is right (BackwardOK), at every point of differentiability. False for broadcasts to the same shape (counterexample). "
  },
  {
   "property": "C29",
   "status": "partial",
   "theorems": [
    "Whale.Props.C29_shapes_partial",
    "Whale.Props.C29_counterexample",
    "Whale.Props.C29_counterexample_pad"
   ],
   "note": "Proved for graphs without same-shape broadcasts, negative pads and empty strided slices; false for the first two (counterexamples)."
  },
  {
   "property": "C30",
   "status": "proved",
   "theorems": [
    "Whale.Props.C30_accumulate"
   ],
   "note": "For BackwardOK graphs, where backward is defined (see C29/C31)."
  },
  {
   "property": "C31",
   "status": "partial",
   "theorems": [
    "Whale.Props.C31_total_partial",
    "Whale.Props.C31_counterexample"
   ],
   "note": "Proved for BackwardOK graphs; false when a same-shape broadcast is followed by a reshape (counterexample)."
  },
  {
   "property": "C32",
   "status": "partial",
   "theorems": [
    "Whale.Props.C32_adjoint_partial",
    "Whale.Props.C32_backward_partial",
    "Whale.Props.C32_counterexample"
   ],
   "note": "Adjoint identity over any commutative ring for every linear operation; false for broadcasts to the same shape (counterexample)."
  },
  {
   "property": "C33",
   "status": "partial",
   "theorems": [
    "Whale.Props.C33_linear_partial",
    "Whale.Props.C33_counterexample",
    "Whale.Props.C33_any_state_partial"
   ],
   "note": "False as stated: gradients of computed arrays are kept (counterexample); proved when they are cleared before each call. C33_any_state_partial: in exact real arithmetic, what backward() adds in any state, whatever gradients exist: the derivative of the sum of the computed arrays weighted with the gradients they started with."
  },
  {
   "property": "C34",
   "status": "partial",
   "theorems": [
    "Whale.Props.C34_same_shape_partial",
    "Whale.Props.C34_counterexample",
    "Whale.Props.C34_exact"
   ],
   "note": "False for every shape without a dimension 1 (counterexample); proved for the others. C34_exact gives what the code returns in all the remaining cases (one element, the total sum)."
  },
  {
   "property": "C35",
   "status": "proved",
   "theorems": [
    "Whale.Props.C35_scoped",
    "Whale.Props.C35_names",
    "Whale.Props.C35_reserved"
   ],
   "note": "Scoping as a block-structured check on the kernel tree; names as character strings; none is a keyword or library identifier of the target languages."
  },
  {
   "property": "C36",
   "status": "proved",
   "theorems": [
    "Whale.Props.C36_cpu",
    "Whale.Props.C36_gpu"
   ],
   "note": "Unbounded integers: overflow of C's int/int64_t is not modelled. A third, strict arithmetic faults wherever Python and C differ; kernels run to the end under it."
  },
  {
   "property": "C37",
   "status": "proved",
   "theorems": [
    "Whale.Props.C37_text",
    "Whale.Props.C37_parse"
   ],
   "note": "The text model writes the source character by character as codegen.py and the language specifications do; the parser is an independent specification of the Python/C/CUDA subset. Trusted: that the subset grammar agrees with the real languages; the C preprocessor, macros and attributes are not modelled; the kernel name is kern_ plus 16 hexadecimal digits."
  },
  {
   "property": "C38",
   "status": "proved",
   "theorems": [
    "Whale.Props.C38_no_recompute",
    "Whale.Props.C38_which_kernels",
    "Whale.Props.C38_exact"
   ],
   "note": " C38_exact: for arrays that perform an operation, exactly which get a kernel; for views only the upper bound holds (try_fuse is order dependent there, see the example in Props/Compile)."
  },
  {
   "property": "C39",
   "status": "proved",
   "theorems": [
    "Whale.Props.C39_split",
    "Whale.Props.C39_code"
   ],
   "note": ""
  },
  {
   "property": "C40",
   "status": "proved",
   "theorems": [
    "Whale.Props.C40_reorder",
    "Whale.Props.C40_unknown"
   ],
   "note": ""
  },
  {
   "property": "C41",
   "status": "proved",
   "theorems": [
    "Whale.Props.C41_discipline",
    "Whale.Props.C41_contents"
   ],
   "note": ""
  },
  {
   "property": "C42",
   "status": "partial",
   "theorems": [
    "Whale.Props.C42_derived",
    "Whale.Props.C42_constant",
    "Whale.Props.C42_dtypes",
    "Whale.Props.C42_ones_like_partial",
    "Whale.Props.C42_zeros_like_partial",
    "Whale.Props.C42_counterexample_zeros",
    "Whale.Props.C42_counterexample_empty",
    "Whale.Props.C42_full_exact",
    "Whale.Props.C42_ones_like_exact",
    "Whale.Props.C42_zeros_like_exact",
    "Whale.Props.C42_like_iff"
   ],
   "note": "Derived arrays: proved for every call. ones_like: proved for non-empty models. False in the code for zeros_like of a float array (int64) and for empty models (float64): counterexamples. The _exact theorems give the dtype of every factory in every case; C42_like_iff says exactly when it is the one of the model array."
  },
  {
   "property": "C43",
   "status": "partial",
   "theorems": [
    "Whale.Props.C43_readable_partial",
    "Whale.Props.C43_fails_partial",
    "Whale.Props.C43_counterexample"
   ],
   "note": "The reshaped scalar can be created and read back; computing with it raises TypeError in the code (algo.py reduce of an empty list), proved in general and by counterexample."
  },
  {
   "property": "C44",
   "status": "proved",
   "theorems": [
    "Whale.Props.C44_accounting"
   ],
   "note": ""
  },
  {
   "property": "C45",
   "status": "proved",
   "theorems": [
    "Whale.Props.C45_classes_partition",
    "Whale.Props.C45_members"
   ],
   "note": ""
  },
  {
   "property": "C46",
   "status": "proved",
   "theorems": [
    "Whale.Props.C46_convert_total"
   ],
   "note": "Recursion depth is the model's fuel: position of the array plus two."
  },
  {
   "property": "C47",
   "status": "proved",
   "theorems": [
    "Whale.Props.C47_interface"
   ],
   "note": "For the freshly generated kernel of every function of every materialize call; a cached kernel has the same code (C25)."
  },
  {
   "property": "C48",
   "status": "proved",
   "theorems": [
    "Whale.Props.C48_cpu",
    "Whale.Props.C48_gpu",
    "Whale.Props.C48_python",
    "Whale.Props.C48_c"
   ],
   "note": "Semantics of the three languages on the parsed text; numbers abstract (laws IntLaws, Agrees) in C48_cpu/C48_gpu, concrete Python and C numbers over any floating point arithmetic in C48_python/C48_c. C and CUDA: arrays of one element type."
  },
  {
   "property": "C49",
   "status": "proved",
   "theorems": [
    "Whale.Props.C49_index_cpu",
    "Whale.Props.C49_index_gpu",
    "Whale.Props.C49_c",
    "Whale.Props.C49_cuda",
    "Whale.Props.C49_float_c",
    "Whale.Props.C49_float_cuda"
   ],
   "note": "Bounded index arithmetic. The bound is sufficient, not shown necessary. C49_float_* need the operations of the floating point arithmetic to be total, as in IEEE 754, and no % (which the API does not offer)."
  },
  {
   "property": "C50",
   "status": "partial",
   "theorems": [
    "Whale.Props.C50_outcome",
    "Whale.Props.C50_shape",
    "Whale.Props.C50_agree_partial",
    "Whale.Props.C50_same",
    "Whale.Props.C50_int",
    "Whale.Props.C50_counterexample_division",
    "Whale.Props.C50_counterexample_gradient"
   ],
   "note": "outcome, shapes and dtypes of calls: same on all backends. Values: proved when the element operations of the two backends correspond (C50_agree_partial), for equal arithmetic (C50_same), and for Python integers against C/CUDA int64 while results stay in 64 bits (C50_int). As stated false of the code: integer / truncates in C, the gradient of a float power has int64 variables in C (counterexamples)."
  },
  {
   "property": "C51",
   "status": "proved",
   "theorems": [
    "Whale.Props.C51_keeps",
    "Whale.Props.C51_safe",
    "Whale.Props.C51_stays",
    "Whale.Props.C51_recover",
    "Whale.Props.C51_incomplete",
    "Whale.Props.C51_counterexample",
    "Whale.Props.C51_counterexample_gpu",
    "Whale.Props.C51_safe_gpu",
    "Whale.Props.C51_stays_gpu",
    "Whale.Props.C51_recover_gpu",
    "Whale.Props.C72_counterexample",
    "Whale.Props.C51_discipline_gpu"
   ],
   "note": "Stated and proved for CPU backends (C51_keeps: every backend). C51_counterexample: reading the interrupted array itself before materializing again returns zeros without an exception (this is the last clause of the property; the hypothesis cannot be dropped). C51_counterexample_gpu: on the GPU backend reading the interrupted array before materializing again makes the wrong data permanent. On GPU backends: C51_safe_gpu, C51_stays_gpu, C51_recover_gpu, for programs that do not read an array while its data are incomplete. Not covered: on the Python backend, an exception while the source of a kernel is being generated (C72_counterexample). C51_discipline_gpu: the device memory discipline of C05/C55 (no double allocation, kernels read only initialised memory, only results are copied back) holds in histories with interruptions."
  },
  {
   "property": "C52",
   "status": "proved",
   "theorems": [
    "Whale.Props.C52_is",
    "Whale.Props.C52_keeps",
    "Whale.Props.C52_stable",
    "Whale.Props.C52_counterexample"
   ],
   "note": "Switch = backend.reset + materialize.reset, backends with the same arithmetic. C52_counterexample delimits C52_stable: an array computed but never read on the GPU is not readable after switching to a CPU backend until it is materialized again."
  },
  {
   "property": "C53",
   "status": "partial",
   "theorems": [
    "Whale.Props.C53_schedule_partial",
    "Whale.Props.C53_code",
    "Whale.Props.C53_counterexample_tail",
    "Whale.Props.C53_counterexample_nested",
    "Whale.Props.C53_counterexample_reduce",
    "Whale.Props.C53_counterexample_reorder",
    "Whale.Props.C53_ceil"
   ],
   "note": "False in the code as stated: with a factor that does not divide the extent the tail guard returns from the whole kernel, nested splits and splits of reduction loops read undeclared variables, reorder across kinds swaps variables but not kinds (counterexamples proved). Proved for all sequences of modes, dividing splits of output loops (each loop once) and reorderings of output loops, under every interleaving. C53_ceil: the floating point division in split (sched.py:74) gives the exact number of blocks for every loop of fewer than 2^53 iterations."
  },
  {
   "property": "C54",
   "status": "proved",
   "theorems": [
    "Whale.Props.C54_strided",
    "Whale.Props.C54_value"
   ],
   "note": "Holds without exception; C54_value links it to the value of the array when no view chain contains a reshape of a view with an offset."
  },
  {
   "property": "C55",
   "status": "proved",
   "theorems": [
    "Whale.Props.C55_invisible",
    "Whale.Props.C55_dead",
    "Whale.Props.C55_footprint",
    "Whale.Props.C55_discipline",
    "Whale.Props.C55_computes"
   ],
   "note": "Collection is modelled per array (data, gradient reference and device memory go together); the record of how a collected array was computed stays in the model's graph, but C55_dead shows nothing refers to it. A DevBuff is freed through the backend that is current when it is collected (buffer.py:22); C55 is about one backend."
  },
  {
   "property": "C56",
   "status": "partial",
   "theorems": [
    "Whale.Props.C56_dims",
    "Whale.Props.C56_accepted_iff",
    "Whale.Props.C56_refused",
    "Whale.Props.C56_partial",
    "Whale.Props.C56_counterexample"
   ],
   "note": "False as stated: grid.y and grid.z are limited to 65535, and the schedule puts whole dimensions there; C56_counterexample: shape (1, 70000, 1) raises. C56_dims: exact launch sizes as a function of the shape, for all ranks. C56_accepted_iff: exactly which shapes are accepted. C56_refused: the others make materialize raise. C56_partial: all dimensions between 1 and 65535 suffice. The numbers of the limits are from the CUDA programming guide, not from the code."
  },
  {
   "property": "C57",
   "status": "proved",
   "theorems": [
    "Whale.Props.C57_no_collision",
    "Whale.Props.C57_compiler_correct"
   ],
   "note": "For sessions that only materialize one-kernel arrays the NoCollision hypothesis of the other theorems is discharged; the condition is stated on the operations the program performed. NoOffsetReshape (defect C09) remains a hypothesis of reading back."
  },
  {
   "property": "C58",
   "status": "partial",
   "theorems": [
    "Whale.Props.C58_key_size",
    "Whale.Props.C58_counterexample",
    "Whale.Props.C58_partial"
   ],
   "note": "false in general (exponential, C58_counterexample for every n); exact size formula C58_key_size; linear bound where intermediate results are used once C58_partial"
  },
  {
   "property": "C59",
   "status": "proved",
   "theorems": [
    "Whale.Props.C59_keeps",
    "Whale.Props.C59_retry",
    "Whale.Props.C59_needs_clearing"
   ],
   "note": "all other properties also hold in histories with interrupted backward calls (constructor stopped of Reachable/Runs/RunsB/RunsX/Tracks/ReachableSimple); garbage-collected histories (C55) and two-backend histories (C36/C50) do not include interruptions"
  },
  {
   "property": "C60",
   "status": "proved",
   "theorems": [
    "Whale.Props.C60_text",
    "Whale.Props.C60_plain",
    "Whale.Props.C60_lookup"
   ],
   "note": "MD5 itself is not modelled: the hypothesis DigestOK of C60_lookup says that the texts involved have different digests."
  },
  {
   "property": "C61",
   "status": "proved",
   "theorems": [
    "Whale.Props.C61_total",
    "Whale.Props.C61_read",
    "Whale.Props.C61_value",
    "Whale.Props.C61_readable"
   ],
   "note": "Printing of a single number is a parameter; C61_value leaves out reshapes of views with an offset (C09)."
  },
  {
   "property": "C62",
   "status": "partial",
   "theorems": [
    "Whale.Props.C62_nesting",
    "Whale.Props.C62_conditionals",
    "Whale.Props.C62_partial",
    "Whale.Props.C62_counterexample_loops",
    "Whale.Props.C62_counterexample_blocks"
   ],
   "note": "False as stated: for every n a program on one-element arrays needs n nested loops (C62_counterexample_loops), and n pads need n nested conditionals (C62_counterexample_blocks). C62_nesting and C62_conditionals give the exact nesting; C62_partial is the property for arrays within the limits."
  },
  {
   "property": "C63",
   "status": "partial",
   "theorems": [
    "Whale.Props.C63_partial",
    "Whale.Props.C63_partial_backward",
    "Whale.Props.C63_calls",
    "Whale.Props.C63_counterexample"
   ],
   "note": "False as stated in the code (recursive functions, Python's recursion limit): C63_counterexample. C63_partial and C63_partial_backward: holds whenever the longest chain of operations is below the limit."
  },
  {
   "property": "C64",
   "status": "proved",
   "theorems": [
    "Whale.Props.C64_step",
    "Whale.Props.C64_session",
    "Whale.Props.C64_end_to_end",
    "Whale.Props.C64_suits_python",
    "Whale.Props.C64_suits_c"
   ],
   "note": "sessions at the level of source text simulate the sessions all other properties are about; Python needs no condition on the numbers, C/CUDA one element type (C50 shows what happens otherwise)"
  },
  {
   "property": "C65",
   "status": "partial",
   "theorems": [
    "Whale.Props.C65_materialize_partial",
    "Whale.Props.C65_shows",
    "Whale.Props.C65_keeps",
    "Whale.Props.C65_stable",
    "Whale.Props.C65_when",
    "Whale.Props.C65_reset",
    "Whale.Props.C65_counterexample_c_python",
    "Whale.Props.C65_counterexample_scalar"
   ],
   "note": "false as stated: cached kernels of another executor are handed to the current one (backend.reset does not empty the cache); proved: exactly when materialize raises, that everything is right otherwise, and when it can happen"
  },
  {
   "property": "C66",
   "status": "partial",
   "theorems": [
    "Whale.Props.C66_safe_partial",
    "Whale.Props.C66_refused",
    "Whale.Props.C66_keeps",
    "Whale.Props.C66_incomplete",
    "Whale.Props.C66_stays",
    "Whale.Props.C66_recover",
    "Whale.Props.C66_reset",
    "Whale.Props.C66_counterexample_zero",
    "Whale.Props.C72_counterexample"
   ],
   "note": "False in the code: an array whose first computation was refused by the executor keeps a zero-filled buffer, and tolist() returns zeros (C66_counterexample_zero: sum read as 0 instead of 21). Proved: all other arrays are read right (C66_safe_partial, C66_stays), incomplete ones have only right elements or zeros (C66_incomplete), arrays never change (C66_keeps), the state left behind is computed exactly (C66_refused), and materialize (C66_recover) or materialize.reset() then materialize (C66_reset) repair everything. CPU backends. Not covered, as in C51: on the Python backend, an exception while the source of a kernel is being generated (C72_counterexample)."
  },
  {
   "property": "C67",
   "status": "proved",
   "theorems": [
    "Whale.Props.C67_same",
    "Whale.Props.C67_tree",
    "Whale.Props.C67_kernels",
    "Whale.Props.C67_source",
    "Whale.Props.C67_exponential"
   ],
   "note": "Debug output modelled line by line; example prints the complete output of one materialize() call. Output is assumed to be writable; numbers are printed by an arbitrary total function."
  },
  {
   "property": "C68",
   "status": "proved",
   "theorems": [
    "Whale.Props.C68_schedule",
    "Whale.Props.C68_runs",
    "Whale.Props.C68_auto",
    "Whale.Props.C68_counterexample_same",
    "Whale.Props.C68_counterexample_tail",
    "Whale.Props.C68_counterexample_reduce"
   ],
   "note": "Arithmetic in kernels unbounded here (C49 treats limits for the automatic schedule); whether the driver accepts the launch is C56."
  },
  {
   "property": "C69",
   "status": "partial",
   "theorems": [
    "Whale.Props.C69_computes_partial",
    "Whale.Props.C69_keeps",
    "Whale.Props.C69_stable",
    "Whale.Props.C69_memory",
    "Whale.Props.C69_counterexample_read",
    "Whale.Props.C69_counterexample_free"
   ],
   "note": "Proved under the condition that a CUDA context is only started when no array has a device pointer; false without it (counterexamples: an array reads another array's elements after backend.reset, and its collection frees the other's block)."
  },
  {
   "property": "C70",
   "status": "partial",
   "theorems": [
    "Whale.Props.C70_step",
    "Whale.Props.C70_session",
    "Whale.Props.C70_suits",
    "Whale.Props.C70_value",
    "Whale.Props.C70_int_partial",
    "Whale.Props.C70_counterexample_wraps",
    "Whale.Props.C70_counterexample_mixed"
   ],
   "note": "Proved for every program in which the arrays computed are made of arrays of one element type (int64 with elements in 64 bits, or float64 with floating point elements). Missing: mixed element types and integers outside 64 bits, for which the claim is false (two counterexamples in the code as it is)."
  },
  {
   "property": "C71",
   "status": "partial",
   "theorems": [
    "Whale.Props.C71_call",
    "Whale.Props.C71_tolist",
    "Whale.Props.C71_state",
    "Whale.Props.C71_continue_partial",
    "Whale.Props.C71_counterexample",
    "Whale.Props.C71_may_read"
   ],
   "note": "False in the code when a kernel of the program has the cache key of a different kernel compiled for other code (C25): C71_counterexample. Proved with that excluded (C71_continue_partial); calls, tolist and state without any condition on keys beyond those under which the two histories were run. The program's own backward is not interrupted in this theorem (the other code's may be)."
  },
  {
   "property": "C72",
   "status": "partial",
   "theorems": [
    "Whale.Props.C72_fresh",
    "Whale.Props.C72_when",
    "Whale.Props.C72_c",
    "Whale.Props.C72_python_partial",
    "Whale.Props.C72_forever",
    "Whale.Props.C72_safe",
    "Whale.Props.C72_computes_partial",
    "Whale.Props.C72_counterexample"
   ],
   "note": "False on the Python backend: C72_counterexample. True on Clang and CUDA: C72_c (with C72_computes_partial, whose SyntaxError case needs Python with a block open). On Python exactly the calls that need a new kernel after an exception strictly between the first nest and the last unnest (C72_when) fail, for good (C72_python_partial, C72_forever). A materialize that raises SyntaxError half-way is the case of Stopped in which generation ran to its end; backward calls are not interrupted here."
  },
  {
   "property": "C73",
   "status": "partial",
   "theorems": [
    "Whale.Props.C73_computes_partial",
    "Whale.Props.C73_keeps",
    "Whale.Props.C73_reads",
    "Whale.Props.C73_returns",
    "Whale.Props.C73_alone",
    "Whale.Props.C73_turns",
    "Whale.Props.C73_counterexample",
    "Whale.Props.C73_counterexample_fill",
    "Whale.Props.C73_computes_kernels_partial",
    "Whale.Props.C73_reads_kernels",
    "Whale.Props.C73_keeps_kernels",
    "Whale.Props.C73_returns_kernels",
    "Whale.Props.C73_alone_kernels"
   ],
   "note": "CPU backends; proved for all interleavings in which finding a kernel (cache lookup, generation if there is none) is one step and starting it (filling its parameters) another. False without that restriction: C73_counterexample (two generations at once on the shared generator: a kernel that computes something else), C73_counterexample_fill (backend.py:35-36 test-then-set). C73_*_kernels: the same for any backend, including GPUs, with each kernel (from cache lookup to the end of its run) as one step. Missing: on GPUs, interruption within a kernel launch (allocation, copying). "
  },
  {
   "property": "C74",
   "status": "proved",
   "theorems": [
    "Whale.Props.C74_invisible",
    "Whale.Props.C74_dead",
    "Whale.Props.C74_safe",
    "Whale.Props.C74_recover",
    "Whale.Props.C74_discipline",
    "Whale.Props.C74_noleak"
   ],
   "note": "Every backend. On a GPU the program does not read an array while its data are incomplete (C51_counterexample_gpu: such a read makes the incomplete data permanent). C74_discipline: the same with collection: no use after free, no double free, and allocated device memory belongs to arrays that have not been collected. C74_noleak: at any time the interpreter can collect everything dead, after which all allocated device memory belongs to live arrays (none if the program dropped everything), also after interruptions."
  }
 ]
}