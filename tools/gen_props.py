import json
P=[]
def p(id,title,statement,quantifier,why,anchors): P.append(dict(id=id,title=title,statement=statement,quantifier=quantifier,why_tests_cant=why,anchors=anchors))
p("C01","array/tolist round trip","For every rectangular nested list v, array(v) succeeds, its shape is the list of lengths of v, and array(v).tolist() == v.","every nesting depth, every length per level (including 0), every element value","tests sample a handful of 1-3 dimensional literals; depth and lengths are unbounded",["ndarray.py:array","ndarray.py:_const","ndarray.py:ndarray.tolist","ndarray.py:ndarray._to_ndlist","util.py:strides_from_shape"])
p("C02","array rejects non-rectangular input","array(v) raises for every nested list v that is not rectangular.","every nested list of numbers","the ways a nested list can be ragged are unbounded (scalar next to list, deep mismatch, late mismatch)",["ndarray.py:array"])
p("C03","factories fill every position","full(s,v), full_like, ones_like, zeros_like and arange(n) return arrays of exactly the requested shape in which every position holds the requested value (i at position i for arange).","every shape, every fill value, every n","unbounded shapes",["ndarray.py:full","ndarray.py:full_like","ndarray.py:ones_like","ndarray.py:zeros_like","ndarray.py:arange","ndarray.py:_const"])
p("C04","row-major addressing is a bijection","For an array with a freshly allocated buffer, distinct valid indices address distinct buffer cells, every address is within the buffer and every cell is addressed.","every shape and every index","unbounded number of shapes and indices",["util.py:strides_from_shape","node.py:Node"])
p("C05","views never leave their base buffer","For every array reached by any chain of transpose, indexing, compatible broadcast and reshape, every valid index addresses a cell inside the buffer of its base array, so tolist never raises IndexError once the base has data.","every chain of view operations of any length over any base array, every valid index","chains compose without bound; each step rewrites strides and offset",["ndarray.py:Func._transpose_forward","ndarray.py:Func._slice_forward","ndarray.py:Func._broadcast_forward","ndarray.py:Func._reshape_forward","ndarray.py:ndarray.base"])
p("C06","transpose semantics","a.transpose(*axes) raises unless axes is a permutation of range(ndim); otherwise b.shape[d] == a.shape[axes[d]] and b[i] is the element of a whose coordinate along axes[d] is i[d], whether read directly with tolist or through a materialized computation. T reverses all axes.","every array, every axes tuple, every index","all permutations of all ranks",["ndarray.py:ndarray.transpose","ndarray.py:ndarray.T","ndarray.py:Func._transpose_forward","algo.py:convert","util.py:argsort"])
p("C07","transpose is undone by the inverse permutation","a.transpose(*p).transpose(*argsort(p)) and a.T.T have the shape, strides, offset and elements of a.","every array and every permutation of its axes","all permutations of all ranks",["ndarray.py:ndarray.transpose","ndarray.py:ndarray.T","util.py:argsort"])
p("C08","indexing and slicing semantics","a[subscript] selects along each axis exactly what Python's own sequence indexing with that int or positive-step slice selects (including negative, omitted and out-of-range bounds, empty results); it raises exactly when there are too many subscripts, an integer is out of range, or a step is not positive. Same whether read directly or through a materialized computation.","every array, every tuple of ints and slices with arbitrary (possibly None, negative, huge) bounds","combinatorial space of bounds, steps and sizes",["ndarray.py:ndarray.__getitem__","ndarray.py:Func._slice_forward","algo.py:convert"])
p("C09","reshape preserves row-major element order","For every array a and every shape of equal size, a.reshape(*shape) has that shape and the same elements in row-major order, both when read back with tolist after materialize and when used as operand of a further computation.","every array, including views with offsets, every target shape of the same size","interaction of reshape with the layouts produced by arbitrary earlier view chains",["ndarray.py:ndarray.reshape","ndarray.py:Func._reshape_forward","ndarray.py:ndarray.is_contiguous","ndarray.py:ndarray.contiguous","algo.py:convert"])
p("C10","reshape rejects invalid shapes","a.reshape(*shape) raises whenever shape is not a shape of the same number of elements (different product, or a negative dimension).","every array and every tuple of integers","unbounded tuples",["ndarray.py:ndarray.reshape"])
p("C11","broadcast shape rule","For a binary operation the result shape is the right-aligned NumPy broadcast of the two operand shapes; the operation raises exactly when that broadcast does not exist; the rule is symmetric in the operands.","every pair of shapes of any ranks","pairs of arbitrary-rank shapes",["ndarray.py:ndarray.broadcasted","ndarray.py:ndarray.__binary"])
p("C12","broadcast_to semantics and validation","a.broadcast_to(s) raises unless a.shape broadcasts to s; otherwise element i of the result is a at i with the added leading coordinates dropped and coordinates of size-1 axes set to 0.","every array and every target shape","arbitrary rank pairs and chains with other views",["ndarray.py:ndarray.broadcast_to","ndarray.py:Func._broadcast_forward","algo.py:convert"])
p("C13","elementwise operations are elementwise","After materialize, each element of -a, sin, cos, exp, log, sqrt, a+b, a-b, a*b, a/b, a**b is the scalar operation applied to the corresponding (broadcast) elements, in operand order.","every operand array (including arbitrary view chains and lazily computed arrays), every scalar semantics","operands are arbitrary expression graphs",["ndarray.py:ndarray.__unary","ndarray.py:ndarray.__binary","algo.py:convert","codegen.py:render_unary","codegen.py:render_binary"])
p("C14","sum semantics","a.sum(axis, keepdims) has shape with the reduced axes removed (or 1), and each element is the left-to-right row-major sum, starting from 0, of exactly those elements of a whose remaining coordinates match. Negative axes count from the end; no axis means all.","every array, every set of axes, both keepdims values","all axis subsets of all ranks, empty axes, duplicated axes",["ndarray.py:ndarray.__reduce","ndarray.py:Func._reduce_forward","algo.py:convert","codegen.py:render_reduce"])
p("C15","sum rejects out-of-range axes","a.sum(axis) raises when an axis is outside [-ndim, ndim).","every array and every axis value","unbounded axis values",["ndarray.py:ndarray.__reduce"])
p("C16","pad semantics","a.pad(dim,before,after) enlarges axis dim (negative dim counts from the end, out of range raises) by before+after and is a shifted by before inside, 0 outside.","every array, every dim, every before/after","unbounded parameters and ranks",["ndarray.py:ndarray.pad","ndarray.py:Func._pad_forward","algo.py:convert"])
p("C17","dilate semantics","a.dilate(dim,step), step>=1, inserts step-1 zeros between consecutive elements along axis dim (negative dim counts from the end, out of range raises; a zero-length axis stays zero-length).","every array, dim and step","unbounded parameters and ranks",["ndarray.py:ndarray.dilate","ndarray.py:Func._dilate_forward","algo.py:convert"])
p("C18","contiguous semantics","a.contiguous() has the shape and elements of a, and row-major strides; it is a itself if a's strides are already row-major.","every array","all layouts reachable by view chains",["ndarray.py:ndarray.contiguous","ndarray.py:ndarray.is_contiguous","algo.py:convert"])
p("C19","end-to-end compiler correctness (CPU)","For every lazily built expression graph, x.materialize() followed by x.tolist() succeeds and returns the nested list given by the mathematical (NumPy-style) meaning of the operations that built x.","every DAG of API operations of any size and sharing, every scalar semantics, every prior history of materializations","graphs, sharing patterns and fusions are unbounded",["materialize.py:Materializer.materialize","algo.py:convert","sched.py:schedule","codegen.py:HighLevelLangCodeGenerator.codegen","backend.py:CPUBackend.invoke_kernel","ndarray.py:ndarray.tolist"])
p("C20","fusion is invisible","Fusing producers into consumers never changes any element of any materialized array.","every graph and every fusion decision taken on it","fusion depends on global reference counts of arbitrary DAGs",["algo.py:convert","algo.py:try_fuse","algo.py:replace_index"])
p("C21","kernels run in dependency order","In one materialize call every kernel that reads an intermediate result runs after the kernel that produces it, and each intermediate kernel runs exactly once.","every graph","all DAG shapes",["algo.py:convert","algo.py:Func.dependent_funcs","materialize.py:Materializer.materialize"])
p("C22","kernel memory safety","A generated kernel, run on the buffers passed to it, writes every element of the output buffer exactly once, writes nowhere else, never reads the output buffer, and only reads input cells that are in range.","every kernel generated for every graph","every index expression produced by arbitrary fused view chains",["codegen.py:codegen","codegen.py:render_buffer","codegen.py:render_func","algo.py:convert"])
p("C23","parallel loops are order independent","Executing the iterations of the parallel (OpenMP) and vectorized spatial loops of a CPU kernel in any order or interleaving gives the same output buffer as sequential execution.","every kernel, every interleaving of the per-iteration memory operations","schedules are nondeterministic",["sched.py:AutoScheduler.schedule_cpu","backend_clang.py:ClangLangSpec.parallel_loop_start","codegen.py:render_loop"])
p("C24","GPU launch covers the output exactly once","With the automatic GPU schedule and the launch grid derived from it, every output element is computed and written by exactly one (block, thread, iteration), surplus threads write nothing and early return never skips required work; the result does not depend on thread interleaving.","every output rank and shape with positive extents, every interleaving of GPU threads","grids, tail blocks and thread schedules",["sched.py:AutoScheduler.schedule_gpu","sched.py:SchedulerFunc.split","backend.py:GPUBackend.invoke_kernel","codegen.py:codegen","codegen.py:render_loop"])
p("C25","kernel cache is transparent","Reusing a cached kernel gives the same result as generating and compiling the kernel afresh, whatever was materialized before.","every history of materializations and every kernel","collisions depend on pairs of arbitrary kernels in arbitrary histories",["materialize.py:Materializer.func_cache_key","materialize.py:Materializer.materialize","kernel.py:KernelCache"])
p("C26","materialize is idempotent and lazy where it should be","Materializing again (the same array, or any arrays in any order) never changes what tolist returns for an already materialized array; materializing a constant launches no kernel and materializing a view launches exactly the kernels of its base.","every history","histories are unbounded",["materialize.py:Materializer.materialize","backend.py:CPUBackend.invoke_kernel"])
p("C27","arrays are immutable values","No API call (operators, views, materialize, tolist, backward) changes shape, dtype, layout, constant data or meaning of an already existing array.","every history of API calls","histories are unbounded; buffers are shared between views",["ndarray.py:Func.forward","ndarray.py:ndarray.backward","materialize.py:Materializer.materialize"])
p("C28","backward computes the derivative","After y.backward(), for every constant leaf x used by y, x.grad is the gradient of the sum of y's elements with respect to x: along every differentiable curve of leaf values the derivative of sum(y) is the sum over leaves of <x.grad, x'>.","every expression graph of any size and sharing built from the differentiable operations, every leaf value inside the operations' domains, every direction","derivatives of arbitrary programs; tests check a few points",["ndarray.py:ndarray.backward","ndarray.py:Func.backward"])
p("C29","gradients have the shape of their array","After y.backward() every array reached has grad of exactly its own shape.","every graph","all shapes/broadcast combinations",["ndarray.py:ndarray.backward"])
p("C30","gradients accumulate over uses","If an array is used several times its grad is the sum of the contributions of all uses, each taken after the consumer's own gradient is complete, and a leaf's pre-existing grad is added to.","every sharing pattern","all DAG sharing patterns and orders",["ndarray.py:ndarray.backward"])
p("C31","backward never fails","y.backward() raises no error for any y built by successful API calls from positive-step slices, in-range axes and compatible shapes.","every graph","every op/shape combination",["ndarray.py:ndarray.backward","ndarray.py:Func.backward"])
p("C32","movement/view/reduce gradients are adjoints","For transpose, indexing, broadcast, reshape, contiguous, pad, dilate and sum the backward rule is the exact adjoint of the forward map: <g, f(x)> = <backward(g), x> for all g and x.","every shape, parameter, g and x","unbounded shapes",["ndarray.py:Func._slice_backward","ndarray.py:Func._pad_backward","ndarray.py:Func._dilate_backward","ndarray.py:Func._broadcast_backward","ndarray.py:Func._sum_backward","ndarray.py:Func._transpose_backward","ndarray.py:Func._reshape_backward"])
p("C33","repeated backward accumulates linearly","Calling y.backward() a second time adds the same gradient to every leaf once more.","every graph","history property",["ndarray.py:ndarray.backward"])
p("C34","gradient through broadcast_to to the same shape","Broadcasting an array to its own shape is the identity, so its gradient passes through unchanged.","every shape","depends on which axes have size 1",["ndarray.py:Func._broadcast_backward","ndarray.py:ndarray.__reduce"])
p("C35","generated kernels are well scoped","In every generated kernel each variable is declared before use in an enclosing block, never redeclared in the same block, and names generated for loop variables, split variables, temporaries, accumulator and arguments are pairwise distinct strings.","every kernel of every graph, any rank, any number of temporaries and arguments","unbounded ranks and temporaries",["codegen.py:HighLevelLangCodeGenerator","algo.py:loopvar_name","sched.py:SchedulerFunc.split"])
p("C36","Python and C index arithmetic agree","For every generated kernel the index arithmetic gives the same value under Python (floor division, floor mod, value-returning and) and C (truncating division and remainder, 0/1 &&) semantics, and never divides by zero.","every kernel, every iteration","unbounded index expressions",["langspec.py:CCompatibleLangSpec","backend_python.py:PythonLangSpec","algo.py:convert"])
p("C37","generated source parses back to the intended program","The source text compiled for a kernel - Python, C or CUDA - exists whenever the kernel does and, read with the grammar of that language (tokens, indentation or braces, operator precedence and associativity), is exactly one function with the kernel's name and parameters whose statements and expressions are the ones the compiler meant.","every kernel of every materialize call on every backend","unbounded nesting of loops, conditionals and expressions",["langspec.py","backend_python.py:PythonLangSpec","backend_clang.py:ClangLangSpec","backend_cuda.py:CUDALangSpec","codegen.py:codegen","codegen.py:render_loop","codegen.py:render_expr","codegen.py:arr_idx_calc_expr"])
p("C38","no shared intermediate is recomputed within a materialize","In one materialize call no array gets more than one kernel and constants get none, there are no more kernels than arrays, all kernels together contain no more operations than the arrays of the graph counted once each, besides the requested array only sums and arrays used at least twice get a kernel of their own, and of the arrays that perform an operation these always do.","every graph","all sharing patterns",["algo.py:convert","algo.py:count_refs","algo.py:try_fuse"])
p("C39","loop splitting enumerates exactly the original range","Splitting a loop of extent e by factor f and skipping iterations with e <= o*f+i enumerates 0..e-1 exactly once each; without a tail guard no iteration is out of range.","every extent and every positive factor","unbounded extents",["sched.py:SchedulerFunc.split","codegen.py:codegen"])
p("C40","reorder only permutes loops","SchedulerFunc.reorder with distinct loop variables permutes the loop variables of the schedule, placing the given variables innermost-first at the positions they occupied, and leaves the others in place.","every schedule and every list of distinct loops","all permutations",["sched.py:SchedulerFunc.reorder"])
p("C41","device memory discipline (GPU)","Under any history of materializations and tolist calls each buffer is allocated on the device at most once and before its first use, inputs are on the device before the launch, and tolist returns the values the kernel computed.","every history on the GPU backend","histories of host/device copies",["backend.py:GPUBackend.invoke_kernel","backend.py:to_cpu","ndarray.py:ndarray.tolist","buffer.py:DevBuff"])
p("C42","dtype propagation","Every derived array reports the dtype of its leftmost operand; ones_like and zeros_like have the dtype of their model array.","every graph","all graphs",["ndarray.py:Func._elemwise_forward","ndarray.py:ones_like","ndarray.py:zeros_like","ndarray.py:_const"])
p("C43","scalar-shaped reshape results can be computed with","An array reshaped to shape () can be used in further computations and materialized.","every graph containing a reshape to ()","depends on the use made of the array",["algo.py:convert"])
p("C44","kernel cache accounting","After any history, the cache holds one kernel per distinct key, launch history length is the number of compilations, and the hit count of a key is the number of launches after its first.","every history","histories are unbounded",["kernel.py:KernelCache","materialize.py:Materializer.materialize"])
p("C45","operation classes partition the operations","Every operation belongs to exactly one of: constant, unary, binary, ternary, reduce, view, or the individually handled movement operations; sentinels belong to none.","every member of the operation enumeration","finite but relies on enum ordering, changes silently when an op is inserted",["ops.py:Ops"])
p("C46","compilation terminates","Conversion, fusion and ordering of any expression graph terminate without exceeding recursion proportional to the number of arrays, and fail only for documented reasons.","every graph","recursion through mutable shared structures",["algo.py:convert"])
p("C47","kernel interfaces match the buffers passed","Every kernel is called with exactly one buffer per declared parameter, the output first, and each parameter is declared with the element type of the array whose buffer is passed.","every kernel of every materialize call","argument lists depend on which producers were fused and on the order of first use in arbitrary expressions",["codegen.py:HighLevelLangCodeGenerator.codegen","materialize.py:Materializer.materialize","algo.py:Func.args"])
p("C48","running the generated source computes the array","The source text compiled for a kernel, run by the rules of its language (statement by statement, scoping, typed or untyped variables, conversions on assignment, Python or C operators) on an output buffer of any content and the elements of the input arrays, ends with exactly the elements of the mathematical result in the output buffer - for CUDA after running it in every thread of the launch in any order. It never reads an undefined name, leaves an array or re-declares a variable; the only other outcome is an arithmetic exception of an element operation or an overflow.","every kernel of every materialize call, every number arithmetic of the language, every order of threads","program texts are unbounded",["langspec.py","backend_python.py:PythonLangSpec","backend_clang.py:ClangLangSpec","backend_cuda.py:CUDALangSpec","codegen.py:HighLevelLangCodeGenerator","backend.py:CPUBackend.invoke_kernel","backend.py:GPUBackend.invoke_kernel","algo.py:convert"])
p("C49","index arithmetic of generated C and CUDA code does not overflow","If no array involved has more than 2^31-1 elements (2^31-256 on the GPU, where the number of threads is rounded up), and no slice step, pad width or dilation is greater, no integer literal and no result of an index operation of a generated kernel leaves the 32-bit range, in any thread: running the source in C or CUDA always computes the array, unless an element operation itself has no result. For floating point arrays (IEEE operations always have a result) it always does.","every kernel of every materialize call over arrays below the bound, every thread and order of threads, every output buffer content","the size bound and the programs are unbounded, overflow shows at sizes no test allocates",["codegen.py:HighLevelLangCodeGenerator","algo.py:convert","backend_clang.py:ClangLangSpec","backend_cuda.py:CUDALangSpec","backend.py:GPUBackend.invoke_kernel"])
p("C50","the same program behaves the same on every backend","Running the same program on two backends (Python, C, CUDA) has the same observable behaviour: every call other than materialize and tolist raises the same exception or returns the same array with the same shape and dtype, and reading an array back in both gives the same numbers. (As stated this is false of the code: integer division truncates in C, and the gradient of a float power is computed with int64 variables in C; where the arithmetic of the backends agrees - in particular for integers under +, -, * and negation within 64 bits - it is true.)","every program, every pair of backends, every schedule of threads, all numbers","programs, backends and element values are unbounded; comparing runs samples them",["ndarray.py:ndarray","ndarray.py:Differentiable","backend.py:Backend","backend_python.py:PythonLangSpec","backend_clang.py:ClangLangSpec","backend_cuda.py:CUDALangSpec","dtype.py"])
p("C51","an exception in the middle of materialize does no lasting damage","If a call of materialize raises in the middle (a kernel divides by zero, Ctrl-C, the compiler fails) and the program catches the exception and goes on, then on the CPU backends: no array is lost or changes shape, dtype or gradient; every array that could be read before can still be read, with the same elements; an array whose own first computation was not the one interrupted is never read back with wrong elements; calling materialize again succeeds (unless, on the Python backend, one of the exceptions came while the source of a kernel was being generated: see C72) and the array then has the right elements for good; reading the interrupted array itself before that gives, for every element, the right value or 0. On a GPU backend the same holds for programs that do not read an array between the interruption of its own computation and materializing it again. There every device operation also stays legitimate: memory left behind by an interrupted call is used again, not allocated twice, and nothing is read before it was filled.","every history of calls, every set of interrupted materialize calls, every point of interruption","crash points times histories is unbounded, and interruption inside a kernel cannot be placed by a test",["materialize.py:materialize","backend.py:CPUBackend.invoke_kernel","backend.py:GPUBackend.invoke_kernel","backend_python.py:PythonBackend","backend_clang.py:ClangBackend"])
p("C52","switching the backend in a running program keeps every array","A program may switch between backends (backend.reset followed by materialize.reset) at any time: no array changes shape, dtype or value; whatever tolist returns on the new backend are the right elements; materialize works on the new backend for old and new arrays; and an array that has been read once can be read on every later backend with the same result.","every program, every sequence of backends with the same arithmetic, every switching point","programs, switching points and arrays are unbounded",["backend.py:reset", "materialize.py:reset", "backend.py:detect", "backend.py:CPUBackend.invoke_kernel", "backend.py:GPUBackend.invoke_kernel", "ndarray.py:ndarray.tolist"])
p("C53","Kernels are right for every CPU schedule","Whatever schedule a program builds for a computed array with the scheduling primitives (execution modes parallel, vectorize, unroll and sequential, split, reorder), the CPU kernel generated for it computes the array: it does not fail, stores to every cell of the output exactly once and leaves the elements of the array there.","all reachable states, arrays, functions of the compiled program, finite sequences of scheduling steps, loop positions and factors, Python and C backends, and interleavings of parallel iterations","Sequences of scheduling steps are unbounded and the result has to be right for each of them and for every interleaving; tests only run the automatic schedule.",["sched.py: SchedulerFunc.split, reorder, parallel, vectorize, unroll", "codegen.py: codegen (split inits, tail guards, loops)"])
p("C54","tolist reads through offset and strides","For every array, whenever a.tolist() returns it is the nested list of shape a.shape whose element at index i is element number a.offset + i[0]*a.strides[0] + ... of a.base() in row-major order; after a.materialize() it does return; no position read lies outside the base.","every array of every session, on every backend","every chain of views",["ndarray.py:ndarray.tolist", "ndarray.py:ndarray._to_ndlist", "ndarray.py:ndarray.base"])
p("C55","Garbage collection is invisible and safe","A program that drops references to arrays and whose interpreter collects, at any time and in any order, arrays that are no longer referenced (by the program, as inputs of referenced arrays, or as their gradients) observes the same results and exceptions as without collection; no collected array is ever used again (also not through the weak references that backward() follows); device memory is freed at most once, never used after it was freed, and a collected array holds no device memory.","every program, every interleaving of API calls, dropped references and collections in any order, every backend","collection happens at arbitrary points and orders between calls; tests see one schedule of the collector, and use-after-free or a leak shows only under specific ones",["ndarray.py: Func.__init__ (weakref output), NDArray.backward", "buffer.py: DevBuff.__del__", "node.py: Node"])
p("C56","GPU launches are within what the device accepts","On the CUDA backend, materializing an array that has elements only launches kernels whose grid and block sizes the device accepts; the sizes depend only on the shape of the array that the kernel computes.","every session, every array and every shape, every kernel launched while materializing it","The limits are reached only with tens of thousands of elements in a particular dimension, and tests on a machine without a GPU never launch anything; which shapes are refused has to be derived from the schedule for all ranks.",["backend.py: GPUExecutor.invoke_kernel", "sched.py: Scheduler", "backend_cuda.py: CUDA kernel launch"])
p("C57","sessions of one-kernel computations never meet a cache collision","In a program that materializes only arrays computed without pad and dilate, with no sum except possibly as last operation, and whose intermediate results are used once (data arrays may be used any number of times), materialize never reuses a kernel compiled for different code: every array is computed and read back as its reference meaning, however many arrays were materialized before and in whatever order.","every program of API calls whose materialize calls are of this kind, every backend","the cache makes the result depend on everything materialized before",["materialize.py:func_cache_key", "kernel.py:KernelCache", "algo.py:convert", "materialize.py:Materializer.materialize"])
p("C58","Compilation lookups stay proportional to the program","The cache key that materialize() builds to look up each kernel grows at most linearly with the number of arrays the result was built from, so looking up (and hashing) kernels never dominates the cost of the program.","all programs and arrays, all backends","the size as a function of program length is a growth statement over all lengths; a test sees one length",["materialize.py: func_cache_key, _expr_key", "algo.py: try_fuse"])
p("C59","Interrupting backward() is harmless","If backward() is left in the middle by an exception the program catches (Ctrl-C, out of memory), at whatever point, every array keeps its shape, dtype, value and data, no gradient is lost or gets a wrong shape, gradients of unrelated arrays are untouched, all later calls behave as if nothing had happened, and after clearing the gradients below the root a second backward() gives the gradients an undisturbed call would have given.","all programs, all points at which backward() can be left, all later calls, all backends","the interruption point is arbitrary and its effect shows only in later, arbitrary calls",["ndarray.py: backward, Func.backward, _*_backward"])
p("C60","The hashed text of a cache key loses nothing","materialize() finds kernels by a digest of the printed form of a description of the kernel. Two descriptions have the same printed form only if they are equal, so a cached kernel is only ever reused for a request with an equal description, unless the digest itself collides.","all cache keys (kernel descriptions), all caches, all digest functions","There are infinitely many descriptions; tests compare a few.",["materialize.py:func_cache_key", "kernel.py:KernelCache", "ops.py:Ops.__repr__", "dtype.py:DType.__repr__"])
p("C61","Printing an array is safe and shows its value","str(a) and repr(a) never raise, compute nothing and change nothing. If the data of the array are in host memory they show exactly the list that tolist() returns; otherwise they describe the array (operation, shape, strides, offset, dtype). After materialize() on a CPU backend, or after tolist() on any backend, the value is shown; the text of an integer array determines the array.","all programs, all arrays in all reachable states, all backends","Every state of the buffers and every view layout matters; tests print a few arrays.",["ndarray.py:ndarray.__str__", "ndarray.py:ndarray.__repr__", "ndarray.py:ndarray._to_ndlist"])
p("C62","Generated programs are not nested too deeply to compile","The program generated for a kernel is not nested more deeply than a compiler of the target language accepts: the number of loops nested in each other and the number of blocks nested in each other (indentation levels in Python) stay below fixed limits, whatever arrays the program built (CPython: about 20 nested loops, 100 indentation levels).","all call histories, all materialized arrays, all kernels, Python and C; all limits","Tests use arrays of rank at most 4 and a single pad; the nesting depends on rank, summed axes and on chains of pad/dilate of any length.",["codegen.py: Codegen.render_loop", "codegen.py: Codegen.render_expr", "algo.py: Algo.try_fuse", "ndarray.py: NDArray.pad", "ndarray.py: full", "backend_python.py: PythonLangSpec"])
p("C63","Any number of operations in a row","The number of operations applied one after another is not limited: an array at the end of a chain of n operations can be materialized and differentiated for every n, not only while n is below Python's recursion limit.","every reachable history, every array, every limit on the depth of recursion","The failure depends on the length of a chain in the user's program; tests use short chains, and no finite test shows that the depth needed is bounded by the longest chain.",["ndarray.py: backward, dfs", "algo.py: convert, arr_to_func, count_refs, try_fuse", "materialize.py: materialize", "materialize.py: _expr_key"])
p("C64","A whole program really computes its arrays when the generated source texts are what runs","Take any program that calls the API in the documented domain, where every materialize() generates source texts for the arrays it needs (or takes texts compiled earlier from its cache), compiles them and calls the compiled functions with the buffers as arguments: every text compiles; the only error a call of a compiled function can raise is a number operation without a result (division by zero, math domain error, overflow), and if no operation used lacks a result materialize() returns; and afterwards, whatever else is called, tolist() returns the reference value of the array. In Python this holds for all arrays, in C and CUDA for arrays of one element type.","all programs (sequences of API calls, any number of materialize calls in between, cached texts reused, backward possibly interrupted), all shapes and elements, all three backends, every order of the GPU threads","the text that runs depends on the whole history (cache, counter of temporaries, fusion), so the pipeline of generator, compiler and cache has to be right for every history, not for each stage on some inputs",["/repo/materialize.py: _materializer.materialize", "/repo/codegen.py: code_generator", "/repo/backend.py: invoke_kernel", "/repo/backend_python.py: python_backend.compile", "/repo/backend_clang.py: clang_backend.compile", "/repo/backend_cuda.py: cuda_backend.compile"])
p("C65","Switching the backend without emptying the kernel cache","Calling backend.reset(name) is by itself enough to change the backend: whatever was computed and cached before, every later materialize() succeeds and every later tolist() gives the value of the array, on every backend the program switches to.","every program of API calls with any number of backend.reset calls between them (no materialize.reset), on the Python, C and CUDA backends, every array of it","The kernel cache is global and its keys do not mention the backend, so the outcome depends on which kernels any earlier part of the program compiled on which backend; a test of one backend after the other only sees the keys of its own arrays.",["backend.py:reset", "materialize.py:Materializer.materialize", "materialize.py:Materializer.func_cache_key", "backend_clang.py:ClangExecutor.execute", "backend_python.py:PythonExecutor.execute", "backend_cuda.py:CUDAExecutor.execute", "sched.py:AutoScheduler"])
p("C66","Going on after a failed computation that met a stale kernel","A program switches between the Python and C backends with backend.reset(name) only, catches every exception, also those raised in the middle of materialize() (a kernel of the other backend being refused is one cause), and goes on. Then no array ever changes, tolist() never returns wrong elements, and after materialize.reset() every array can be computed and read correctly (unless, on the Python backend, one of the exceptions came while the source of a kernel was being generated: see C72).","every history of API calls, switches between CPU backends, refused and otherwise interrupted materialize calls and interrupted backward calls, every array, every backend meeting its language's rules","Each history mixes switches, cached kernels and interruption points differently; a test can only try some. The interesting states are those left behind by exceptions.",["backend.py:invoke_kernel", "backend.py:reset", "materialize.py:materialize", "materialize.py:reset", "backend_python.py:execute", "backend_clang.py:execute", "kernel.py:KernelCache"])
p("C67","Debug mode changes no result and reports what was done","With WHALE_DEBUG=1 every call has the same effect as without: same result, same state afterwards, or the same exception. What materialize() prints begins with a tree that has one line for each use of an array the result is computed from, indented by its distance and showing that array's text; every kernel that is run is announced either as generated, with its whole source, or as found in the cache, and no other source is printed. (The tree does not share repeated arrays, so n times x = x + x prints 2^(n+1)-1 lines.)","all programs, backends and printers of numbers; all points of a program at which materialize() is called","A test compares the runs it makes with and without debug output; an exception while printing some array or expression, or a kernel that is run without being announced, may occur only for programs it does not contain.",["debug.py:dbg_tree", "debug.py:dbg_schedule", "debug.py:dbg_kernel", "materialize.py:Materializer.materialize", "algo.py:Func.__str__", "buffer.py:CPUBuff.__repr__"])
p("C68","Kernels are right for every GPU schedule that binds loops properly","Whatever schedule a program builds for a computed array with the scheduling primitives for a GPU (split output loops, each at most once, by any positive factor; reorder output loops; make loops sequential or unrolled or bind them to block or thread indices), as long as no two loops are bound to the same index, only output loops are bound and both parts of a split that leaves a remainder are bound, the kernel and its launch compute the array: no thread fails, every cell of the output is stored to exactly once and the elements of the array are left there, however the threads are interleaved. The automatic GPU schedule is one of these. Each of the three conditions is needed.","all reachable states, arrays, functions of the compiled program, finite sequences of scheduling steps, loop positions, factors and hardware indices, and interleavings of threads","Sequences of scheduling steps, extents and factors are unbounded and the result has to be right for each of them and for every interleaving of the threads; no GPU is available to the tests, which only use the automatic schedule.",["sched.py: SchedulerFunc.split, reorder, unroll, gpu_blocks, gpu_threads", "codegen.py: codegen (split inits, tail guards, loops)", "backend.py: launch dimensions", "backend_cuda.py: loop_begin"])
p("C69","Device memory stays private across garbage collection and backend changes","Whatever a program computes, drops, lets be garbage collected and reads, on CUDA and on CPU backends between which it changes with backend.reset(name) followed by materialize.reset(), and whatever free blocks the CUDA driver gives out (the address of a freed block may be given out again): an array the program still refers to is computed and read back as its value, an array once read can be read again with the same result on every later backend, on CUDA every device pointer points to an allocated block of its own, and no block outlives its array.","every program over the API with drops, collections and changes of the backend, every order of the collections, every allocator that gives out free blocks","addresses are reused at the discretion of the driver and collections happen at any time; a wrong read needs one particular coincidence of addresses",["buffer.py: DevBuff", "backend.py: GPUBackend.invoke_kernel, to_cpu, free, reset", "backend_cuda.py: CUDAExecutor", "materialize.py: reset"])
p("C70","Python numbers survive the trip through C memory","With the Clang and the CUDA backend, which convert every Python number to a C number when an array is passed to compiled code and back when a result is stored or read, an array is computed and read back as the same Python numbers as if there were no conversions: what materialize and tolist return, and what they raise, is what the session in C numbers gives, and a program of integers gives the same list of Python integers as with the Python backend.","every program over the API, every element, both compiled backends, any state of the caches","a conversion that loses bits shows only for some values (2**63, a fraction in a list of integers) and the conversion happens at every kernel argument of every launch",["backend_clang.py: ClangExecutor.invoke_kernel", "backend_cuda.py: CUDAExecutor.memcpy_htod, memcpy_dtoh", "dtype.py: ctype", "ndarray.py: _const, tolist"])
p("C71","Other code in the same interpreter does not influence a program","A program that uses the library behaves the same whether it has the interpreter for itself or other code in it uses the library as well, before and between its calls, on arrays of its own or on arrays of the program (without assigning to the program's gradients): every call of the program returns the corresponding array or raises the same exception, and tolist returns the same list.","every program over the API, every interleaving with calls of other code (including calls that raise and backward calls that are interrupted), every backend satisfying its specification","The state shared between the two (kernel cache, temporary variable numbers, buffers, gradients, launch history) depends on the whole interleaving; tests run one program in one order.",["ndarray.py: NDArray", "materialize.py: materialize, _kernel_cache", "backend.py: Backend", "node.py: Buffer", "algo.py: convert"])
p("C72","An exception while a kernel is being generated does not outlive itself","If materialize is left by an exception in the middle of generating the source of a kernel (Ctrl-C, MemoryError, RecursionError) and the program catches it and goes on, then later calls do what they would do had the exception not come: a materialize that would return still returns, and tolist returns the array's elements. (In the code this holds on Clang and CUDA; the code generator object, of which there is one per backend, keeps its indentation level, so that on the Python backend an exception between its first nest and last unnest makes every later call that needs a new kernel raise SyntaxError, until backend.reset makes a new generator.)","every session of calls on the level of source texts, every set of interrupted code generations, every point of interruption between two actions of the code generator, every backend","The point of interruption is a position among the actions of generating one of unboundedly many kernels; a test cannot place an exception there, and what it leaves behind shows only in later calls.",["codegen.py:HighLevelLangCodeGenerator", "codegen.py:HighLevelLangCodeGenerator.codegen", "backend.py:detect", "backend.py:reset", "materialize.py:materialize"])
p("C73","Threads do not disturb each other","If several Python threads use the library at the same time – each materializes arrays of its own or arrays shared with others, and reads them –, then after a thread's a.materialize() has returned, a.tolist() gives the array's value, whatever the other threads are doing; no thread can be prevented by the others from finishing its materialize, and none changes the shape or value of an array that exists. (In the code this holds as long as no two threads are generating kernels, or filling the buffers of a kernel's parameters, at the same moment. The code generator keeps the lines of the kernel being generated in the fields of one object shared by all threads, so two simultaneous generations can silently give one thread a kernel that computes something else; and invoke_kernel tests for a missing buffer and then assigns one, so a thread can replace a buffer that another has just filled.)","every number of threads, every program of each, every interleaving of their steps (looking up or generating a kernel, start of a kernel, each store of a kernel, end of a kernel, other calls), including threads ended by exceptions, every backend (on a GPU the steps are whole kernels)","Schedules are unbounded in number and not under a test's control; a wrong interleaving hits once in very many runs, and then gives numbers, not an exception.",["materialize.py:Materializer.materialize", "codegen.py:HighLevelLangCodeGenerator", "backend.py:CPUBackend.invoke_kernel", "kernel.py:KernelCache"])
p("C74","Collection and interruption together","For a program that catches exceptions raised anywhere inside materialize or backward (Ctrl-C, a failing compiler, a CUDA error) and whose arrays are garbage collected as it drops them, collection is invisible: the program behaves exactly as the same program, interrupted in the same places, does when nothing is collected. No collected array is used or revived, an array whose own computation was not interrupted is never read back wrongly, and materializing an array again repairs it for as long as the program refers to it. On a GPU every device operation stays legitimate (no use after free, no double allocation or double free, kernels read only memory that was filled), and memory an interrupted call left behind is freed with its array; once the dead arrays are collected no device memory is left but that of live arrays.","every backend, every sequence of API calls, dropped references, collections of dead arrays in any order, and interruptions of materialize at any point (between functions, while parameters are filled, allocated or copied, after any number of a kernel's stores) and of backward at any point (on a GPU: no array is read while its data are incomplete)","An interruption can come at any instruction and a collection at any moment; their combinations with the rest of a history are unbounded, and a stale or freed buffer gives numbers, not an exception.",["buffer.py:DevBuff.__del__", "materialize.py:Materializer.materialize", "backend.py:CPUBackend.invoke_kernel", "backend.py:GPUBackend.invoke_kernel", "ndarray.py:ndarray.backward"])
open("/verif/properties.jsonl","w").write("".join(json.dumps(x)+"\n" for x in P))
