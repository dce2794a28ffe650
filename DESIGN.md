# Formal model of hidetatz/whale in Lean 4 — design

(`/repo` is a Python code base, although the task header says go. Everything below cites the Python files. Nothing in `/repo` is built or run.)

## 1. Architecture of the model

The model follows the pipeline of the code, one Lean file per Python file, under `lean/Verif/Model`. Every definition cites file and lines.

| Lean module | Python | content |
|---|---|---|
| `Model/Ops` | ops.py, dtype.py | operation enum with its numeric values and class predicates |
| `Model/Util` | util.py | `strides_from_shape`, `argsort`, `prod` |
| `Model/NDArray` | ndarray.py, node.py, buffer.py | the heap of ndarrays/nodes (append-only list; object identity = position), every public constructor/operator/view/movement method with its error checks, `base`, `tolist` |
| `Model/Algo` | algo.py | `Expr`, `Func`, `arr_to_func`, `has_reduce`, `replace_index`, `count_refs`, `try_fuse`, `dependent_funcs`, `args`, `convert` |
| `Model/Names` | algo.py, sched.py, codegen.py | the identifiers of generated code as structured names, and their character strings |
| `Model/Sched` | sched.py | `SchedulerFunc` (`split`, `reorder`, execution modes), `AutoScheduler` for CPU and GPU |
| `Model/Kernel` | codegen.py | code generation into a statement tree; sequential interpreter with Python's and C's integer arithmetic |
| `Model/Parallel` | codegen.py, executor.py, backend_clang.py, backend_cuda.py | concurrent execution: `parallel`/`vectorize` loops in any interleaving, GPU threads of a launch in any interleaving, grid and block sizes |
| `Model/Materialize` | materialize.py, kernel.py, backend.py, executor.py | cache key, kernel cache, compilation and invocation, host/device buffers, `materialize`, `tolist` on a device |
| `Model/Backward` | ndarray.py | every `_*_backward` rule and `ndarray.backward` |
| `Model/History` | all public calls | `Call`/`step`: one constructor per public operation; `Reachable` = state after any sequence of calls |
| `Model/KeyText`, `Model/Str` | materialize.py, ndarray.py | the text of cache keys; printing arrays |
| `Model/Text` | codegen.py, langspec.py, backend_{python,clang,cuda}.py | the source text of kernels, character by character, with the writer state (lines, indentation, temporaries) |
| `Model/Source` | materialize.py, backend*.py | sessions in which `materialize` generates, caches, reads and calls source texts |
| `Model/Address` | buffer.py `DevBuff`, backend.py, backend_cuda.py | sessions with device addresses: allocation, freeing, destroying a context |
| `Model/Ctypes` | backend_clang.py, backend_cuda.py, dtype.py | sessions in which every copy to and from compiled code converts numbers |
| `Model/Writer` | codegen.py | the code generator as an object that can be stopped between any two actions (append a line, change the indentation, take a temporary) |
| `Model/Unfinished` | materialize.py, codegen.py | sessions of source texts with the indentation level as state; `materialize` stopped inside code generation |
| `Model/Threads` | materialize.py, backend.py, codegen.py | several Python threads: `materialize` proceeding store by store; two threads on one code generator; two threads filling one buffer |
| `Model/Debug` | debug.py, `__str__` methods | sessions with WHALE_DEBUG=1: what `materialize` prints |
| `Model/Crash`, `Model/Refused` | materialize.py, backend.py | states left behind by a `materialize` that raises part-way |
| `Model/Stale` | backend.py, materialize.py | switching backends while the kernel cache is kept |
| `Model/Collect` | buffer.py, backend.py | garbage collection of arrays and device memory |
| `Model/Limit` | ndarray.py, algo.py, materialize.py, codegen.py | depth of Python's recursion, with its limit |

Independent specifications live in `lean/Verif/Spec`. Tensors are a shape and an index function (`Tensor`); NumPy-style operations, nested lists, Python slicing, reference evaluation
of a program (`Reference`), gradients and derivatives, device traces, scoping rules, the grammar of the target languages (`Syntax`: lexer and parser) never mention strides, offsets,
loops, kernels or caches of the model. Property theorems live in `lean/Verif/Props` (one file per group, `example`s beside them show that the hypotheses are met), helper lemmas in `lean/Verif/Proofs`.

### Modelling decisions and simplifications
* **Integers** (shapes, strides, offsets, indices, loop variables) are unbounded `Int`, like Python's. C `int`/`int64_t` overflow is treated separately, in C48–C50 (`Spec/Numbers`, `Spec/Semantics`).
  `math.ceil(extent / factor)` (sched.py) is exact integer division in the model; Python computes it in floating point (exact below 2^53).
* **Scalars** (array elements) are an arbitrary type `V` with arbitrary *total* operations (`Scalar V`): theorems hold for every interpretation, in particular Python numbers, IEEE doubles and
  (an instance with an absorbing error element) Python exceptions raised by a scalar operation. The derivative theorems instantiate `V := ℝ` (exact arithmetic, no nan), the adjoint theorems a commutative ring.
  Conversions between element types in C (`int64_t` storage of a float, integer `/`) are not part of `Scalar`; they are modelled where the text is run (C48–C50: `Spec/Numbers.scalarOf` for sessions of one element type, `callOf` for any).
  Two kinds of literals are kept apart: `Scalar.host` (a Python int the library puts in a constant array: always int64) and `Scalar.ofInt` (an integer literal in a kernel, of the kernel's type).
* **Object identity**: ndarray, Node, ctx `Func` and `Buffer` are in 1:1 correspondence in the code (each constructor call creates one of each, `Node(buffer=…)` is never used), so one `Nat` identifies all four.
  `LoopVar` objects are identified by name (names within a function are distinct: C35).
* **Mutation**: the heap of arrays is append-only (fields of a Node are never assigned); mutable parts are buffer contents, `grad`, the kernel cache. Assignments to `.grad` by the user are the calls `setGrad`/`clearGrad`.
* **Exceptions** are `Except Err`. Unbounded recursion is modelled with fuel, running out of which is the error `recursion`; theorems (C46, C19) show it is not reached. Python's recursion limit is the subject of C63.
  Histories consist of calls that return, plus calls that raise before changing anything; C51 adds `materialize` interrupted at any point. C59 adds `backward` interrupted at any point, and so do all other kinds of histories (with garbage collection, C55; with device addresses, C69; with two sessions side by side, C50, which are then interrupted at the same point).
* **Out-of-range list access** in generated code is a failure of the model's interpreter; Python would wrap negative positions, C would be undefined.
* **Cache key**: the model compares the key tuples. That `str` of the tuple loses nothing is C60; MD5 is assumed to have no collision among the texts of a session.
* **Concurrency**: a parallel loop's outcome is any interleaving of the stores of its iterations. Kernels never read `out` (C22_reads), so interleaving whole traces of stores covers finer interleavings. A GPU launch likewise.
  CUDA's launch limits (grid at most 2^31-1, 65535, 65535; block at most 1024 threads; nothing 0) are modelled as a condition under which a launch raises (`launchOK`); zero-size arrays and
  larger launches on the GPU are excluded by `ArgsOK` (C56).
* **Ghost state**: the launch log, launch counter and device trace in `World` are written but never read by the modelled code; they exist to state C21, C25, C41, C44.
* `sorted` is an insertion sort (stable, like Python's). Shapes are tuples (a list given as shape would compare unequal to tuples in the code).
* **Scalar expressions in C**: `Kern.evalKD` applies the same element operations on every backend; see dtype remark above.
* Not modelled: writing to standard output (what is printed is C61 and C67), clang/nvcc/CUDA driver internals, floating-point rounding, memory exhaustion, 
  `tile` (broken in the code: calls `reorder` with the wrong arity), on a GPU backend, threads of the program interrupting each other within a kernel launch (kernel by kernel: C73).

## 2. Per-property plan

| id | what is modelled, how proved |
|---|---|
| C01 | `array`, `tolist` on nested lists; induction on nesting |
| C02 | `array`; full statement false (scalar beside list is accepted): witness + `_partial` for length-ragged input |
| C03 | factories; reuse of C01/C04 lemmas |
| C04 | `strides_from_shape`; induction on shape: ravel is injective, in range, onto |
| C05 | layout invariant of every node (`address in range`) by induction over graph construction |
| C06–C08, C12, C18 | per-op theorem: (tensor meaning of result) = spec op (tensor meaning of argument), both via strides (`tolist`) and via index expressions (`convert`) |
| C09 | false for contiguous-looking slices with offset (tolist reads from offset 0): witness + `_partial` |
| C10 | false for an even number of negative dims: witness + `_partial` |
| C11 | spec `broadcastShape` on right-aligned dims, equality both ways |
| C12 | validation part false (no check): witness; semantics under compatibility proved |
| C13, C14, C16, C17 | spec op on tensors; end-to-end through C19 |
| C15 | false (axis % ndim): witness; `_partial` = normalisation for in-range axes |
| C16/C17 | negative dim: false, witness; zero-length dilate: witness |
| C19 | reference evaluation of a program vs. every reachable history: convert correct + fusion correct + codegen correct + any allowed schedule of the kernel + cache + layout invariant |
| C20 | `try_fuse` with arbitrary fusion decisions gives the same values (substitution lemma, refinement of the code's own decisions) |
| C21, C46, C38 | DFS lemmas on the function table; C38 by a counting potential |
| C22, C35, C36 | interpreter is partial (none on out-of-range, undefined variable, read of `out`, division by 0); execution is proved to succeed under Python's, C's and a strict arithmetic that faults where they differ; scoping as a separate block-structured check; names as character strings |
| C23, C24 | kernel = set of per-iteration write traces; any interleaving of the traces gives the same memory |
| C25 | false (no key for Ternary; Fnc key lacks identity/shape): three witnesses at the API; `_partial`: the key determines everything else, transparency for collision-free histories |
| C26, C27, C41, C44 | invariants of the call state machine by induction over histories |
| C28–C32 | adjointness of each rule, induction over the reversed topological order, Mathlib `HasFDerivAt` |
| C33, C34 | false: witnesses; `_partial` versions |
| C37 | text writer = rendering of the statement tree (simulation of the writer), lexer and recursive-descent/precedence-climbing parser as specification, `parse (text) = program`; by induction over the statement tree with continuation-style parser lemmas |
| C39, C40 | arithmetic / list permutation |
| C42 | dtype of every node along histories; zeros_like part false: witness |
| C43 | false (reduce of empty sequence): witness and general failure theorem |
| C45 | the enum is finite: `decide` over the whole table |
| C47 | parameters and arguments of a kernel correspond one to one, with dtypes and sizes |
| C48 | operational semantics of the Python/C/CUDA subset (`Spec/Semantics`), with numbers as a parameter (`Num`, instantiated in `Spec/Numbers` by Python and C numbers over any floating point arithmetic); simulation of the generated text by the statement tree (`SemExpr`, `SemStmt`), form of generated kernels (`SemGen`), then C36/C22/C24. For C and CUDA all arrays of the kernel have one element type (hypothesis `Elem`) |
| C49 | the interpreter of the statement tree is run with bounded index arithmetic (`Arith.bounded M`, a fault at any other result); `Lim` threads the bound through the conversion, the kernel proofs and C36 (`Proofs/Lits`, `Proofs/Bounded`); `C49_index_cpu/gpu` say that no index operation faults, `C49_c/cuda` lift this to the generated text with `Spec/Semantics`, `C49_float_*` to arithmetic without exceptions (`Complete`, IEEE). The bound is sufficient; it is not claimed to be necessary (loop variables are `int64_t`) |
| C50 | two sessions run the same program over pairs of numbers (`Both`, `Spec/Related`); a logical relation on graphs (`Proofs/Related*`) shows that calls have the same outcome and the arrays related values when the operations respect the relation (`C50_outcome`, `C50_shape`, `C50_agree_partial`, `C50_same`). `C50_int`: Python integers against C's `int64_t`, both related to exact checked 64-bit arithmetic (`exact64`). False in general: `C50_counterexample_division`, `C50_counterexample_gradient` |
| C51 | `Model/Crash`: the worlds in which `materialize` may be left by an exception (`Interrupted`: before any kernel, while parameters are filled in/copied, after any prefix of a kernel's stores); histories with any number of interruptions (`ReachableX`), which record the arrays whose first computation was interrupted. Invariant `InvX`: hiding the incomplete buffers gives a world satisfying the invariant of histories; incomplete buffers have the right length and every element right or 0 (`Proofs/Crash`). `C51_keeps` (every backend), `C51_safe`, `C51_stays`, `C51_recover`, `C51_incomplete` (CPU). On a GPU, reading the interrupted array keeps the wrong copy for good (`C51_counterexample_gpu`) On a GPU (`ReachableXG`, `Proofs/CrashGpu`: device memory holds complete data except for arrays in `D` and arrays with a host copy, which is copied before every use): `C51_safe_gpu`, `C51_stays_gpu`, `C51_recover_gpu`, for programs that do not read an array while its data are incomplete (`C51_counterexample_gpu` shows why). |
| C52 | `RunsB` (`Spec/Switch`): histories on changing backends; a switch drops the compiled kernels (`materialize.reset()`), backends share the arithmetic, a GPU backend is only started when no device memory is in use. The invariant of histories mentions only the arithmetic, so it survives (`Proofs/Switch`). `C52_is`, `C52_keeps`, `C52_stable`; `C52_counterexample`: data that exist only on the GPU cannot be read after switching to a CPU backend. Switching without `materialize.reset()` (kernels of another language in the cache) is C65 |
| C53 | invariant over sequences of scheduling steps (loops = a permutation of the per-dimension parts), bijection between loop variable values and output indices; false in general: four counterexamples (tail guard, nested split, split and reorder of a reduction loop); C53_ceil: the floating point division of `split` is exact below 2^53 |
| C54 | Model: `Mat.tolist`, `ND.toNdlist`, node offsets and strides. Spec: `Spec/Strided` (`position`, `strided`). Proof: the layout invariant bounds every position; `tolist` of the base buffer, which holds the base's value. C09_exact and C09_iff are corollaries that say exactly when reading a reshape is right. |
| C55 | `Model/Collect`: what keeps an array alive (program, inputs, gradients; the reference to a function's output is weak), the end of an array (`World.collect`: data gone, device memory freed by `DevBuff.__del__`). `Spec/Collect`: `RunsG`, histories in which the program drops references and the interpreter collects dead arrays in any order. Proof: every operation and gradient rule only creates references to new arrays or to arrays it can reach (`cl_step`), touches only those (`step_foot`), and does the same in worlds that agree on them (`agree_step`); so a run with collections is simulated by one without (`RunsG.sim`): `C55_invisible`, `C55_dead`, `C55_footprint`, `C55_discipline` (trace with `free`), `C55_computes`. Device traces of C38 etc. now know `free` |
| C56 | `Model/Parallel.launchOK` says which launches `cuLaunchKernel` accepts; `invoke` on a GPU raises for others. `Spec/Grid` gives grid and block as functions of the shape. Proved: launch sizes equal these (C56_dims), accepted iff explicit bounds on the shape (C56_accepted_iff), materialize raises otherwise (C56_refused). The property is false for shape (1, 70000, 1) (C56_counterexample); C56_partial: dimensions at most 65535. The correctness theorems now assume `FitsGrid` on GPUs. |
| C57 | Spec/OneKernel: the condition is on the operations by which the program built the array (no pad/dilate, sum only last, intermediates used once), `ReachableSimple`/`TracksSimple` are sessions in which every call raises or has such arguments. Proofs/OneKernel: conversion of such an array gives one function without references and conditionals (which arrays get kernels: `convert_uses`), its cache key is plain, the launch log stays plain along the session, plain keys identify the code (C25), so the domain condition `ArgsOK` of the other theorems is met; C19 then gives the end-to-end statement without any hypothesis about generated code. |
| C58 | False in the code: `_expr_key` writes out every referenced function at every use. `C58_key_size` is the exact characterization (the key of each kernel has exactly as many operations as the array's formula written out without sharing, `formulaOps`), proved through an invariant of `try_fuse` (written-out size is preserved by inlining). `C58_counterexample`: for every n and every backend, `n` doublings (n+1 arrays) lead to a key with 2^n - 1 operations, by induction over the run. `C58_partial`: the linear bound for arrays whose intermediate results are used once. Missing: pad/dilate (their keys collapse, C25). |
| C59 | `Bwd.Stopped` models every point between the individual effects of `backward` (arrays made, gradients assigned). `Stopped.bstep` shows by induction over the visited prefix that the state is consistent; `Reachable`, `Runs`, `RunsB`, `RunsX`, `RunsG`, `RunsP`, `Both`, `Tracks`, `ReachableSimple` and the others have a constructor for it, so all other properties quantify over histories with interrupted `backward` calls. `C59_keeps`, `C59_retry` (through `two_runs`), `C59_needs_clearing`: without clearing the second call counts contributions twice. |
| C60 | `Model/KeyText`: the Python tuple for a key and Python's `repr` of nested tuples, strings and ints, character by character. `Proofs/KeyText`: unique readability of that text by induction (numbers end at the next non-digit, strings contain no quotes), injectivity of the tuple encoding. `C60_text`, `C60_plain` (no escapes needed), `C60_lookup`: filing by a digest finds the same kernel as filing by the tuple. MD5 collisions stay an assumption. |
| C61 | `Model/Str`: `__str__` as a function of the state. `C61_total`: never raises, shows what `tolist` returns; `C61_read`, `C61_value` via C26 and C19; `C61_readable`: unique readability of printed nested lists. |
| C62 | Spec/Nesting measures nested loops and blocks on the parse tree of the generated text (C37 grammar). Exact formula by induction over code generation and an invariant of fusion (conditionals written out, reduced loops unchanged); the property is false for every limit (rank; chains of pads), partial theorem for arrays within the limits. The number of nested Python calls of the compiler itself (recursion limit) is not part of this property. GPU kernels are not covered. |
| C63 | Model/Limit repeats convert, materialize and backward with at most L levels of recursion in each recursive function. chainLen (Spec/Limit) is the longest chain of operations. False as stated: C63_counterexample runs n negations of [u, v] for every n and every faithful backend: both calls work without a limit and with any limit above n, both raise RecursionError with every limit up to n. C63_partial / C63_partial_backward: with a limit above the longest chain the limited functions equal the unlimited ones, for every reachable history (rank argument: every function refers only to functions with shorter chains, which fusion preserves). Simplification: Python counts frames of all functions together, the model levels of each recursion separately. |
| C64 | `Model/Source` is the session again with texts in place of statement trees: `materialize` calls `Text.codegen`, reads the text with the grammar of `Spec/Syntax` and calls the function by the rules of `Spec/Semantics`. Forward simulation by the session with statement trees (`Spec/Source`: `Matches`), call by call and kernel by kernel, using C37 (texts parse) and C48 (calls compute), cached kernels by the cache invariant; then C19 gives the reference values. |
| C65 | `Model/Stale.lean` adds to the state which executor every cached kernel was compiled for, and what each executor does when handed the kernel of another one (raise, or run it by the rules of Python). False as stated: `C65_counterexample_c_python` (C, then Python), `C65_counterexample_scalar` (CPU, then GPU, arrays of shape `()`). `C65_materialize_partial` says exactly when materialize raises, and that it is right otherwise; `C65_when` bounds the danger; `C65_shows`, `C65_keeps`, `C65_stable`: nothing is ever wrong; `C65_reset`: materialize.reset() is the cure. What a refused call leaves behind (allocated buffers) is not modelled. |
| C66 | Sessions of C65 combined with the interruptions of C51 (`Stale.Part`, `Stale.Interrupted`, computable `Stale.left`); invariant: hiding the incomplete buffers gives a session of C65. The statement is false for arrays whose computation was refused (they read as zeros): `_partial` for the others, exact description of the rest, counterexample. |
| C67 | Model/Debug follows materialize() with its debug output (list of lines) at the level of source text: trees of arrays and expressions, schedules, sources, headings. Proved: C67_same (the debug step, without its output, equals Src.step: printing arrays is total by WInv, printing functions by the order of the function table), C67_tree (line by line against visits, a separate unfolding of the graph), C67_kernels (texts added to the cache against headings and printed sources; launches against announcements), C67_source (the printed lines are the source), C67_exponential (doubling program). Writing to standard output is assumed to succeed. |
| C68 | the invariant of C53 for any modes and factors; launch sizes from distinct bindings; threads × values of the sequential loops = indices of the loop extents (both sides without repetition, same members); a guard holds on all iterations of a thread or on none; the automatic schedule by its step sequence; three counterexamples (same index twice, sequential part of a split with remainder, bound reduction loop) |
| C69 | `Model/Address`: sessions whose arrays have device pointers (addresses) into a heap of blocks; `cuMemAlloc` is any function that gives out a free address, `cuMemFree` frees the block at an address, `backend.reset` destroys the context with its blocks but leaves the pointers in the arrays. `Proofs/Address`: simulation with the sessions without addresses (`PtrRel`: pointers are injective and the block is the device copy), through every call, collection and change of the backend. `C69_computes_partial`, `C69_keeps`, `C69_stable`, `C69_memory` if a CUDA context is only started when no array has a pointer; `C69_counterexample_read` (after `backend.reset("CUDA")` an old array reads another array's elements) and `C69_counterexample_free` (its collection frees another array's block) without that condition |
| C70 | `Model/Ctypes`: the session of `Model/Source` with Python numbers in the host buffers and C numbers in kernel arguments and device memory, converted on each copy by a `Marshal`; `Sem.ctypes` are CPython's conversions (c_int64 keeps the low 64 bits, a float into an integer array is a TypeError). `Spec/Ctypes`: the same session read in C numbers (`Cty.lower`), programs that use both backends (`CBoth`). Proved by simulation against the sessions in C numbers (`C70_step`, `C70_session`, `C70_value`) for arrays of one element type whose elements are of that type, then with C50 against the Python backend (`C70_int_partial`). False in general: integers outside 64 bits wrap silently (`C70_counterexample_wraps`), a list that begins with an integer and contains a float raises only with the compiled backends (`C70_counterexample_mixed`). |
| C71 | `Spec/Amid.lean`: two worlds, one in which the program runs alone and one in which it runs amid other code, with the map from arrays to arrays (`Amid`, an inductive interleaving). Proved by an embedding of graphs (`GEmb`) preserved by every operation and gradient rule (`Proofs/Embed`, `EmbedB`, `EmbedC`), by the conversion to loop functions (`EmbedD`: same kernels up to renaming of arrays), and by the availability of data (`EmbedE`). `C71_call` (results and exceptions), `C71_tolist`, `C71_state`, `C71_continue_partial` (the program can go on; for `materialize` provided no cache keys collide, C25). False in the code without that condition: `C71_counterexample` (a kernel compiled for other code is used for the program). |
| C72 | `Model/Writer`: the code generator as a program of actions on the fields of the object (`Gen`: clear, writeln, nest, unnest, tmpvar, render), method by method; `run` when left alone (= `Text.codegen`, the function of C37 and C64, `agree_codegen`), `stop n` when an exception comes after `n` actions. `Model/Unfinished`: the sessions of C64 with the indentation level as part of the state and `materialize` stopped between any two actions (`Unf.Stopped`). Proved: by balance of the program (`Gen.Bal`) a block stays open exactly strictly between the first `nest` and the last `unnest` (`C72_when`); with `i` blocks open every line of a source is shifted by 4`i` blanks (`run_shift`), which the lexical analysis of C/CUDA does not see (`parse_shift`) and of Python rejects (`parse_indented`). `C72_c`: on Clang and CUDA a bisimulation with sessions in which the generator is put in order; `C72_python_partial`, `C72_forever`: on Python calls that need no new kernel are unaffected, the others raise `SyntaxError`, for good; `C72_safe`, `C72_computes_partial`: what is read is right, on every backend, by simulation with C64's sessions. `C72_counterexample`: the property is false on the Python backend. |
| C73 | `Model/Threads`: a thread's `materialize` as a job (`begin_`: convert and schedule; `find`: cache lookup, code generation; `start`: parameters; then one step for each store of the kernel), any number of jobs on one shared world, other calls in between (`Spec/Threads.TStep`). The invariant says that every array outside a set `D` of arrays being computed has the right buffer or none, that those in `D` are right or zero everywhere, and that each job's remaining stores bring right values to every place of its output that is not right yet (`JobOK`); it is stable under the steps of the others because stores only ever make places right (`TLater`). `C73_computes_partial`: a returned array stays readable and right; `C73_keeps`, `C73_reads` (right or zero at any moment), `C73_returns` (a thread can always finish by its own steps alone), `C73_alone` (an undisturbed job is `materialize`). The parts taken as one step are examined on their own: `Gen.race` interleaves the actions of two generations on one generator object, `Fill.race` the test and assignment of backend.py:35-36. `C73_turns`: generations one after the other give both threads their kernels; `C73_counterexample`: an interleaving after which `x * y` is computed by a kernel that adds; `C73_counterexample_fill`: one after which a finished buffer is replaced by zeros. Simplifications: the values that a kernel reads are taken when it starts (they are complete and never change again, by the invariant); `backward` and the calls that make arrays are one step; `materialize.reset()` is not called while a `materialize` is under way. `C73_*_kernels`: the same for any backend, also a GPU, with coarser steps, one for each kernel (`advanceWhole`; invariant `InvK`: every buffer is complete, each job's inputs are there when its next kernel starts); `C73_reads_kernels` there says right, not right or zero. |
| C74 | histories with calls, interruptions (C51, C59), dropped references and collections (C55), on any backend; simulation by histories of C51 without collection: calls and interruptions do the same in worlds that agree on live arrays and touch nothing else (only shapes and references are needed, not what the arrays contain); safety and recovery carried over from C51; the device trace: an invariant relating trace and device memory proved along C51 on a GPU (an array that is not incomplete and has no host copy was computed), and carried over to the run with collections, in which every call appends the same events and none of them is about a collected array |

## 3. Trusted base
Lean 4.33 kernel; axioms at most `propext`, `Classical.choice`, `Quot.sound` (no theorem depends on others; `vcheck` replays every module); our reading of the Python code (each definition cites file and lines); the modelling decisions of
section 1; for C48 that `Spec/Semantics` describes the languages; for C37 that the grammar in `Spec/Syntax` agrees with Python, C11 and CUDA C++ on the subset; that the operating system, compilers and CPython run kernels according to the interpreter (`Faithful`). C64 discharges the last point down to the semantics of the languages: there sessions run the generated texts by `Spec/Semantics` (threads of a launch one after the other), and nothing is assumed about the backend's way to run statement trees (`C64_end_to_end`, `C64_session`).

## 4. Tests against wrong programs
`seeded/LOG.jsonl` records edits of the model like those of a realistic bug. Each mutant is built in a scratch copy with error recovery: a broken proof leaves its theorem in the environment resting on Lean's placeholder axiom, and a property theorem counts as
failed if it depends on that axiom (directly, or through a lemma whose proof broke). Limitation: "failed" therefore means "no longer established by the proofs in /verif", which is weaker than "refuted"; concrete `example`s beside the
theorems, which evaluate the model, are what shows that the mutated statement is false of an actual input.

## 5. Checking the model against the project's tests
`tools/gen_tests.py` reads `/repo/test.py` as text (it is parsed, never run) and writes `lean/Verif/Tests/Repo.lean`: all 144 unit tests of the project as programs for the model, with their expected shapes, strides, lists, identities,
dtypes, exceptions, launch counts and cache hits. Every one of them passes in the model with the Python backend (evaluated by the kernel), and every sixth also, to save build time, with a CUDA-like backend (all 144 do). Floats are exact fractions and
`math` functions stay unevaluated; the four tests with large arrays are scaled down. These are tests of the reading of the code, not proofs of properties, and no property rests on them.
