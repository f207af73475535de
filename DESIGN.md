# Formal model of SpatialOps in Lean 4

## 1. Trusted base

* Lean 4.33.0 kernel. No axioms of our own; every property theorem depends on
  at most `propext`, `Classical.choice`, `Quot.sound`. Section 6 lists them per theorem.
* Faithfulness of the model: each definition cites the file and lines of
  `/repo` that it models. The C++ is never run, so the tie to the code is that
  citation and the reading behind it.
* Modelling conventions used everywhere:
  * `int`, `size_t`, `ptrdiff_t` are unbounded `Int`/`Nat`. C++ `/` and `%` are
    `Int.tdiv` / `Int.tmod` (truncation). C71 justifies
    this for the index functions, windows and iterators: it models them again with the
    machine types and proves both agree up to 2^31-1 cells.
  * A pointer is an `Int` address (or block id plus index).
  * An `assert`, a thrown exception and undefined behaviour are distinct
    outcomes (`Outcome.abort`, `.throws`, `.ub`), never a default value. The
    model is of the debug build (`NDEBUG` undefined) unless a comment says so.
  * `double` arithmetic is modelled by an arbitrary (ordered) field, or by an
    uninterpreted value type when only data movement matters. Rounding is
    modelled for C77, C78, C85, C103 and C105 to C107 (`Verif/Round/Model.lean`: every operation gives
    the exact result rounded; no overflow, underflow or NaN). Overflow and underflow are modelled for C108. Comparisons (C45) additionally model NaN and infinities.
  * Threads: a transition system whose steps are the critical sections of the
    code; condition variables admit spurious wake-ups. Memory is sequentially
    consistent.
  * Allocators (`new`, `cudaMalloc`, `cudaMallocHost`) are parameters: the address they
    return is given with the operation, and the client's legality predicate says it is
    not in use.
  * Histories: worlds carry, beside the state of the code, the record of an observer
    (who obtained which block, which task ran where). The record is only written, never
    read, by the model of the code.

## 2. Layout

`lean/Verif/<Area>/Model.lean` holds definitions citing the code,
`Spec.lean` (when needed) the independent specification, `Lemmas.lean` (and `Steps.lean`)
helper lemmas, `Props.lean` the property theorems and non-vacuity examples.
`Base.lean` has the outcome monad. `NeboOps/Table.lean` is generated from the text of
`NeboOperators.h` by a script that only copies each macro use and its line number into
a row; it is an ordinary committed module, checked like the others.
`MANIFEST.json` maps each property to its theorems, `seeded/LOG.jsonl` records the wrong programs
the theorems were tried against.

| area | files modelled |
|------|----------------|
| Index, Iter | IntVec.h, MemoryWindow.h/.cpp (windows, refine, field iterators) |
| Mach | the same files as Index, Iter and the iterator of BitField.h, in machine integers |
| Ghost, Geometry | GhostData.h, FVTools.h, FVStaggeredFieldTypes.h/IndexTriplet.h, window bookkeeping of SpatialField.h |
| Mask, MaskMem | BitField.h, SpatialMask.h |
| Pool, DevPool | MemoryPool.h/.cpp without and with CUDA |
| CudaPtr | ExternalAllocators.h, CudaMemoryAllocator.cu: CUDASharedPointer, allocation and release (not: statistics, device information; memcpy and memset are modelled by their effect in MaskMem and FieldMem) |
| Shutdown, TimedWait | threadpool: shutdown_policies.hpp, terminate_all_workers, timed wait (not: joining the threads) |
| StoreMT | SpatialFieldStore.h get_from_window/restore_field with threads, MemoryPool.cpp statement by statement |
| PtrMT | SpatialFieldStore.h SpatFldPtr with threads, access by access to the reference count |
| Chain | NeboAssignment.h consecutive assignments |
| Flat | (no new model: Geometry, Nebo and Stencil on meshes with a single cell in some direction) |
| Heat | test/heatEqn/main.cpp and tools.h: building the ten fields, coordinates and initial values, work arrays from the field store, fluxes, right-hand side, time loop. Not: printing, command line, timing, CUDA build; `sin` and `cos` are parameters; which blocks of memory the store hands out are parameters |
| Fork | threadpool/example/mergesort/mergesort.cpp: the batches of jobs, `wait()` after each, the pool it creates; jobs as sequences of single memory accesses. `std::inplace_merge` is a parameter with its contract. Not: jobs that throw, other clients of the same pool, resizing while the program runs, weak memory |
| Concur | NeboLhs.h:171-226, 402-414 and Semaphore.h with several calling threads; locking, counting, waking and unlocking of each call's semaphore as separate steps; lifetime of the semaphore. Not: resizing, clearing or shutting down the pool meanwhile; memory weaker than sequential consistency of single accesses |
| Loops | loops with field iterators; structured/stencil/test/ReferenceStencil.h:120-487. Not: fields on the GPU; meshes with a single cell in a direction |
| Round | arithmetic of values with rounding, for assignments, reductions and operators. Not: overflow, underflow, infinities and NaN; fused or reordered operations of an optimising compiler; the accuracy of library functions other than `pow(x, 2)` and `sqrt`, which is a hypothesis |
| Matlab | `write_matlab`. Not: infinities, NaN, negative zero; write errors after the file is open |
| Conserve | NeboStencilBuilder.h: apply_to_field of the registered operators (tables in Stencil) |
| Accuracy | nothing further: Stencil over the real numbers |
| LagrangeErr | nothing further: Lagrange over the real numbers |
| Prog | NeboLhs.h:123-226 and NeboAssignment.h:28-225 statement by statement, on top of Nebo and NeboPar |
| Adapt | task_adaptors.hpp:97-158 |
| Study | test_stencil_helper.h:23-58, 160-172, 200-248 |
| HeatErr | none of its own: the program of area Heat |
| FloatErr | none of its own: the operators of areas Stencil and Round |
| GpuTest | NeboLhs.h:66-70, 341-384; gpu_prep of NeboRhs.h, NeboMask.h, NeboStencils.h, NeboOperators.h, NeboCond.h |
| DevMem | CudaMemoryAllocator.cu:28-316, 343-421; the CUDA runtime is assumed to allocate, copy and count as documented, with one address space for all devices |
| HeatPar | test/heatEqn/main.cpp and tools.h in a build with threads: NeboLhs.h:123-226 under every assignment; work arrays are handed out before the list of actions is made |
| GpuKern | structured/test/CudaStencilLib.h: `_div_float_opt2` and `divergence_float_gpu` (the kernels not launched, and the printing of a plane, are not), ExternalStencilTest.cu: `stencil7_cpu` and the comparison, CudaVecLib.cu; sequentially consistent single accesses; `float` is any type with the operators, int overflow and limits on grids left out |
| MaskView | structured/SpatialMask.h: constructors, `reshape`, both forms of `operator()`, `begin`, `end` and the interior ones, in LOCAL_RAM |
| Views | test/StencilChainTest.cpp, all functions except the timers and the parsing of arguments; `get_minus_coef` and `get_plus_coef`, which it calls, do not exist in NeboStencilBuilder.h, so `coefs().get_coef(0)` and `get_coef(1)` stand in |
| Script | tutorial/tutorial.cpp (the calls of its four sections, without the output) and quickstart/quickstart.cpp |
| Solve | programs that call NeboAssignment.h, NeboLhs.h and NeboReductions.h (if and while statements of the language, conditions from reductions) |
| First | ThreadPool.cpp (`self()` step by step and the wrappers called by several threads), SpatialOpsTools.h (thread counts) |
| Release | the NDEBUG reading of IntVec.h, MemoryWindow.h/.cpp, GhostData.cpp, SpatialField.h, SpatialFieldStore.h, SpatialMask.h, Nebo*.h, ParticleOperators.h, PointOperators.h, LagrangePoly.cpp, MemoryPool.cpp (CPU part) |
| Streams | SpatialField.h (`set_stream`), NeboLhs.h (launch and synchronisation of a GPU assignment), CudaMemoryAllocator.cu (copies), programs of these |
| RelPar | NeboLhs.h (`thread_parallel_assign`, `gpu_assign`), NeboRhs.h, NeboMask.h, NeboStencils.h, NeboOperators.h, NeboCond.h (`resize`, `init`, `gpu_init`) with `NDEBUG`; programs on the thread pool |
| Meshes | none of its own: assignments of Nebo and NeboPar with operands on a mesh of another size |
| March | test/heatEqn/main.cpp:155-174 with the update and the boundary conditions that its comment leaves to the user |
| BoxFilter | box filter collections and NeboAverageStencilBuilder of NeboStencilBuilder.h; structured/stencil/test/test_filter.cpp:12-51 |
| HeatRound | the code of areas Heat and March with the rounded arithmetic of area Round |
| MarchPar | the code of areas March and HeatPar |
| BcRound | `spatialops/structured/stencil/test/testOpBC.cpp` (`test_bc_helper` from the boundary condition on), and the code of area Bc |
| ParticleRound | the code of area Particle (`apply_to_field` of both operators) |
| LagrangeRound | the code of area Lagrange (`LagrangePoly.cpp`) |
| Range | the arithmetic of `double`, the type of field values (`structured/SpatialField.h`), with its limited range |
| Whole | (specification and theorems only) exact results in the arithmetic of `double` (`structured/SpatialField.h`) |
| Rewrite | (specification and theorems only) equivalent right-hand sides of assignments in the arithmetic of `double` |
| Order | (specification and theorems only) monotonicity and positivity of assignments in the arithmetic of `double` |
| Near | (specification and theorems only) differences in the arithmetic of `double` |
| Ptr, Field, FieldMem | SpatialFieldStore.h/.cpp, SpatialField.h (ownership, consumers, access checks, operator=, operator(), contents on several devices) |
| Threads, Sync | threadpool/pool_core.hpp, worker_thread.hpp, scheduling_policies.hpp, size_policies.hpp, future.hpp, ThreadPool.cpp resource manager, Semaphore.h |
| Nebo, NeboPar, NeboGpu, NeboRed, NeboCond, NeboOps | Nebo*.h: field/rhs/assignment modes, masks, stencils, conditionals, reductions, operator overloads, thread and GPU back ends |
| OpDb, Stencil, Grid, Bc, Lagrange, Particle, Compare, Point, Func | OperatorDatabase.h, stencil/, Grid.cpp, BoundaryConditionOp.h and Nebo BC, LagrangePoly, particles/, SpatialFieldComparisons/FieldComparisons.h, pointoperators, FieldFunctions.h |

Not modelled: CMake and tests (but see Loops, Heat, Views, Chain, Study, GpuTest and GpuKern), the CUDA runtime itself
(errors; streams beyond the order of jobs of C98; execution order within kernels beyond C24), `boost::any`,
timing utilities, floating-point rounding except in C77, C78 and C85, builds with `NDEBUG` except in C97 to C99, weak memory ordering, exceptions thrown by the
standard library on memory exhaustion.

## 3. Plan per property

| id | modelled | proof shape |
|----|----------|-------------|
| C01 | IntVec.h index maps | algebra, Euclidean division |
| C02 | MemoryWindow::flat_index | injectivity from C01 |
| C03 | MemoryWindow::refine | per-direction interval tiling, lifted to 3D |
| C04-C06 | FieldIterator state machine | invariant: state is a function of count |
| C07, C08 | GhostData | algebra; C08 is refuted by a witness, partial kept |
| C09, C10 | FVTools, SpatialField window bookkeeping | arithmetic, induction over resets |
| C11, C12 | BitField words, ConstMaskIterator | bit/word arithmetic, refinement to a set of points |
| C13, C14 | Pool get/put | invariant over histories |
| C15 | SpatFldPtr heap | invariant over histories; refuted with detach, partial kept |
| C16, C17 | SpatialField ownership, store get | invariant over histories |
| C18-C20 | accessor decision table, operator=, operator() | case analysis, refutations where the code deviates |
| C21-C25 | Nebo expression language, init/resize/walk, schedules | refinement to pointwise semantics |
| C26 | CondBuilder / NeboCond | induction over clauses |
| C27, C28 | reductions | fold over the window enumeration |
| C29, C31, C50 | operator table, staggered offsets, Grid | finite table times algebra |
| C30 | OperatorDatabase | refinement to a map from type to list |
| C32, C33 | BoundaryConditionOp, Nebo BC builder | algebra plus index mapping; C33 refuted for some inputs |
| C34-C37, C39 | pool_core transition system | invariants over all runs; C37 refuted |
| C38 | semaphore + assigner | invariant over all runs |
| C40 | resource manager | histories |
| C41, C42 | LagrangePoly | selection arithmetic plus Mathlib Lagrange |
| C43 | particle loops | induction on the loop, ordered field |
| C44 | point operators | list algebra |
| C45 | comparisons | decision logic |
| C46 | Grid | algebra |
| C47 | FieldFunctions | Mathlib derivatives; GaussianFunction::dx refuted |
| C48 | coefficient collections | induction; length one refuted |
| C49 | future | invariant over all runs |
| C51 | windowed view constructor | arithmetic on windows |
| C52 | single-value fields | decision logic; the check of the code is too weak, partial kept |
| C53 | construction modes | memory contents after the constructor |
| C54 | table of Nebo operator overloads | the complete finite table, each row proved to denote its mathematical operation |
| C55 | CUDA-build Pool | two copies of the C13 invariant over shared bookkeeping; mixed release refuted |
| C56, C57 | BitField memory, consumers | invariant over histories: ownership, then contents of every held block; refutations |
| C58 | CUDASharedPointer: pointers, host counters, device blocks, current device | invariant over histories (counter = users, sharing classes apart); refutations |
| C59 | FieldMem: Field plus the contents of all memory; `reset_values`, `add_consumer`, `operator=`, writes | invariant over disciplined histories (references held, consumers agree with home); three refutations without the discipline |
| C60 | `operator=` for all combinations of memory types | case analysis in reachable states; refutation for views with other global dimensions |
| C61 | constructor and `reset_values` on CPU and device | from the loop theorem of C53; refutation for partial windows |
| C62 | Shutdown: the pool of Threads plus the thread running `shutdown()`, for the three policies | invariant by phase of the shutdown over all interleavings; termination by a lexicographic measure; four refutations |
| C63 | TimedWait: the pool plus any number of timed calls and the clock | simulation into the pool of Threads; invariant tying calls to clients; one refutation |
| C64 | Conserve: `apply_to_field` of every registered two-point operator, with the sums of NeboRed | pointwise value from C22 and the stencil tables; telescoping sums over blocks |
| C65 | gradient and divergence of the same volume type | from C64 by the product rule under the sum |
| C66 | interpolants and filters on ordered fields | non-negative weights summing to one, from the tables |
| C67 | all registered operators | the value is a weighted sum of the reads |
| C68 | StoreMT: every statement of `Pool::get`/`put` a step, threads, the store's and the fields' mutex | invariant tying the state inside a call to the sequential world; linearization at the release of the mutex; termination measure; two refutations without the store's mutex |
| C69 | PtrMT: reading and writing the reference count are single steps, any number of threads | invariant per counter (value = live pointers, adjusted for the one operation in progress) over all schedules that keep operations on one field apart; three refutations without that |
| C70 | Chain: sequences of `<<=` on the model of C22; specification by substituting expressions for fields | value of an expression after an assignment = value of the substituted expression before (induction over expressions), then induction over the statements; refutation with a stale ghost cell |
| C71 | Mach: the index functions, windows and iterators again, with 32-bit `int` (overflow undefined) and wrapping 64-bit `size_t` | every intermediate value bounded by the number of cells; equality with the unbounded model step by step, then by induction over histories; the limit proved sharp |
| C72 | Flat: no new model; the models of Geometry, Nebo and Stencil on meshes with single-cell directions | in such a direction the ghost arithmetic is that of a mesh with `1 - lo - hi` cells whose only stored cell is number `-lo`; the proofs of C22, which need no positive size, are transported along that renumbering; refusals by inverting the window assertions |
| C73 | Heat: `calculate_flux`, `calculate_rhs`, the time loop and `main` of test/heatEqn, composed from the models of fields, store, operators, assignment and grids | C72 gives the value of each assignment; frames by memory block; induction over time steps; telescoping sums for energy; sign of each outflow for the maximum principle |
| C74 | Fork: a client program over the pool of area Threads, shared memory, jobs as automata of single accesses; `sortProg` and `examplePool` of the merge sort example | invariant: each job has come as far as it would have come alone on the memory at the beginning of its batch; counting measure for termination, no-deadlock from the pool's invariants; induction over the levels of the merge sort; the shipped example's hang by an invariant of its own |
| C75 | Concur: callers, each with a list of assignments, over the pool of area Threads and the partition tasks of area NeboPar; each call's semaphore as mutex, condition variable and counter with a lifetime | invariant of the whole system: each task has come as far as it would have come alone on the memory at the beginning of its assignment, posts and waits of a call account for each other, the mutex holder is who the program counters say; a measure that every step but a spurious wake-up decreases; no-deadlock from the pool's invariants; nested assignments: an invariant of the stuck pool |
| C76 | Loops: the loop over an iterator of a destination and iterators of sources, over whole fields, interiors and parts; the five reference stencils of ReferenceStencil.h with their compile-time extents | induction over the trips of the loop with the list of iterators as state; equal memories from the pointwise theorems of C22; the extents of the reference stencils checked for all registered operators and boundary flags by a complete finite table, sizes and contents by proof |
| C77 | Round: numbers of a floating-point format with rounded operations as the value type of the models of Nebo, NeboRed, Stencil and Conserve, which are functions of the arithmetic of the values; rounding to nearest even with `p` digits and unbounded exponent | error analysis by induction over formulas and sums with a pair (error, size); instances of C22, C27, C28 and of the lemmas of C64 at the rounded numbers; monotonicity of rounding to nearest even for the bounds of interpolants; the witness for the box filter by integer arithmetic proved equal to the rounding |
| C78 | Matlab: the call as the text sent to the file and how it ended; `double` printed in scientific notation by rounding to nearest even and decimal digits | the loop by induction over the cells left; the numeral by the facts of C77 on rounding and `Nat.digits`; the specification reads decimal numbers by rules of its own, shown to be unambiguous |
| C79 | Accuracy: the operators of Stencil over the real numbers, applied to fields that sample a function of position | each averaging operator is a mean over a product of offsets, checked on the finite table of registrations; the errors along one line by integrating bounds on derivatives (a fencing theorem of Mathlib), those of the product by telescoping |
| C80 | LagrangeErr: the model of Lagrange over the real numbers | the value is that of the interpolation polynomial on the window (C41); the error by Rolle's theorem, iterated by induction on the number of zeros, on the function minus the polynomial |
| C81 | Prog: programs of assignments as a transition system: statements by the calling thread, scheduling, steps of tasks, the wait | induction on the run, with what C23 says of each statement; the bound by induction on the program |
| C82 | Adapt: looped_task_func as a transition system with a clock that does not go back | invariant on each place of the program, by induction on the run; the break by arithmetic modulo 2^32 |
| C83 | Study: the program of the convergence test on the models of fields, grid, assignment, database, operators and norm | each step by its own theorem (C09, C46, C22, C31, C79, C27), the frames of the steps composed; the norm bounded by the pointwise error |
| C84 | HeatErr: the program of area Heat over the reals | C73 reduces the result to the finite-volume form; Taylor expansions of temperature and conductivity along each direction bound the difference of the fluxes |
| C85 | FloatErr: no model of its own; operators on floating point values (area Round) and on exact ones (area Accuracy) | linearity of the operators separates the error of the data; C77 bounds the rounding, C79 the discretisation |
| C86 | GpuTest: gpu_prep over expression trees, the field built on the device, the GPU assignment of C24 and the copy back | structural induction over expressions (each operand's copy survives the later ones), then C24 and C22; the zeroed rest and the in-place difference by concrete fields |
| C87 | DevMem: allocated blocks, current device, statistics; histories of calls | invariant over histories (addresses distinct, no device overcommitted); the wrong device by concrete machines |
| C88 | DevMem: bytes of the blocks | induction over histories that do not touch the block |
| C89 | HeatPar: the program as a list of actions, any assignment divided into tasks, interleaving semantics | readiness of every action on flat meshes; induction over the list and over runs; link to the sequential program (C73, C84) |
| C90 | GpuKern: threads as sequences of single accesses and barriers, all interleavings, shared arrays per block | a position for every thread and an invariant over all runs: equal barrier intervals within a block, contents of the tile, planes written; a bound on steps and progress; witnesses for the violated parts |
| C91 | GpuKern/Vec: same semantics, one element per thread | invariant over runs, covering and injectivity of the thread index |
| C92 | MaskView: all constructors of SpatialMask, reshape, traversal as a loop | induction over the chain of reshapes for the window and over the loop for the values read, with C11 and C12 |
| C93 | Views: the program test/StencilChainTest.cpp function by function, on the models of views (Loops), assignment (Nebo) and operators (Stencil) | induction over the expression for assignments to views; the hand-written kernel by that theorem and field algebra, the serial one by the theorems on operators; induction over the repetitions |
| C94 | Script: a program is a list of calls on one pool, executed by one thread that takes turns with the workers of Threads and the destructor of Shutdown; the tutorial and the quick start are such lists | invariant over the moves relating the calls made to the pool's records; a number that decreases at every move shows the end is reached, and in a state without moves the destructor has returned; for the pool without threads the invariant that no task starts |
| C95 | Solve: programs of assignments, if and while statements over a stack of programs still to be executed; each assignment done at once or handed to the tasks of NeboPar; conditions from the reductions of NeboRed | big-step specification of the program run by one thread; invariant: whatever the rest of the program does to the present memory the whole program does to the first; induction over the specification shows that no run is infinite |
| C96 | First: threads that call the wrappers of the pools, with the steps of `self()` (guarded static variable, unguarded test and write of `init_`, registration under the mutex) and of the calls interleaved with each other and with the workers | refinement: the registry in which every pool counts as registered when it is made is the one of a single thread making the calls in the order in which they held the mutex; invariants for registrations and locks; measure for termination; the race and the warning by witnesses |
| C97 | Release: the functions with assertions and `#ifndef NDEBUG` code, once more without them; loops by number of trips; programs of scratch fields and assignments | each function simulates its debug version; loops by induction on the trips; programs by induction with the set of determined elements as invariant; witnesses for what happens where the debug build refuses |
| C98 | Streams: host and device as a transition system; each statement is a step of the host or a job of a stream with the threads of C24; order of jobs by the rules of CUDA streams | commutation: accesses of jobs that do not conflict change places, so every run has the effect of the jobs one after the other; the order of statements implies the order of jobs; witnesses for what happens without an order |
| C99 | RelPar: assignment by threads and by GPU without the code of the debug build; programs of such statements and scratch fields as a transition system | simulation: the accesses of each task are those of the debug build up to a failure, and the debug build, which always ends, never fails; with C23, C24, C97 for the statements; bound on the steps for termination |
| C100 | Meshes: no new model; assignments of area Nebo (and NeboPar for the witness with two parts) whose operands lie on a mesh of another size | smaller operand: the walker of the operand fails after its last cell and the loop makes more trips, so the call cannot end normally, and C21 excludes undefined behaviour; otherwise: the walker followed by the number of cells passed gives the exact effect; the violation and its dependence on the number of threads by witnesses |
| C101 | March: the time loop of area Heat with `temperature <<= temperature + dt * rhs` after each right-hand side and any code for boundary conditions before it | one trip from C73 and the assignment; heat from `C73_energy`; the step is a combination of the neighbours with weights that are not negative under the limit, so bounds, stability and convergence follow by induction on the steps; consistency from the bound of C84 and a Taylor expansion in time |
| C102 | BoxFilter: the seven collections of points, `apply_to_field` of the averaging operator, the choice of the filter by the mesh and `run_test` of test_filter.cpp up to its comparison | the sum over the points is the sum over a box, for each collection; the assignment by C72, which covers meshes with single-cell directions; compositions by computing with the definition of the mean; accuracy by the Taylor bounds of C79 |
| C103 | HeatRound: the model of areas Heat and March with the rounded arithmetic of area Round for the values | the assignments give the right-hand side in the order of operations of the program for any arithmetic; its roundings are counted with the rules of C77; within the limit the sizes add up to three times the largest temperature; induction on the steps with the stability of C101; the residual of the solution from the proof of `C101_order` |
| C104 | MarchPar: the time loop of area March as a list of actions of area HeatPar, in any arithmetic | the list done by one thread is the time loop; every action meets the conditions of `C89_commands`, so that any schedule gives its memory; the results of C101 and C103 carry over |
| C105 | BcRound: boundary conditions of area Bc, whose model and memory lemmas hold in any arithmetic, over the floating-point numbers of area Round; the test `test_bc_helper` | what is written is the rounded quotient; its error is carried through the operator with the error calculus of area Round, and divisions and multiplications by the same coefficient cancel |
| C106 | ParticleRound: the particle operators of area Particle, whose model holds in any arithmetic, over the floating-point numbers of area Round | the pieces of a particle add up exactly to the difference of its computed ends; errors of the pieces and of the accumulation by induction over the loops; on the mesh, rounding keeps the order of cell ends and particle ends |
| C107 | LagrangeRound: the interpolant and the derivative of area Lagrange, whose model holds in any arithmetic, over the floating-point numbers of area Round | errors of products, of inverses of products and of sums by induction over the loops; a divisor with relative error u counts as a factor with relative error u/(1-u); at a point of the table all weights are computed as exactly 0 or 1; the total error by comparison with the polynomial through the exact values, with the error of area LagrangeErr |
| C108 | Range: the rounding of `double` with gradual underflow and an arbitrary result of overflow; assignments, sums and operators are those of areas Nebo, NeboRed and Stencil | an error with a relative and an absolute part is carried through every operation, together with a bound that excludes overflow, by induction over formulas, stencils and reductions; that nothing changes within the range is a second induction over formulas and programs, which compares two formats |
| C109 | Whole: no further model, formulas and rounding are those of areas Round and Range, programs those of area Prog | induction over formulas: what is computed is what the formula means, and for whole numbers it is a whole number within the limit; programs by comparing the format with exact arithmetic, as in C108 |
| C110 | Rewrite: no further model, formulas and rounding are those of areas Round and Range | induction over the derivation that two formulas differ by the rules; roundings to nearest even, with and without underflow, are shown to be odd and idempotent; the other rules are refuted by numbers |
| C111 | Order: no further model, formulas and rounding are those of areas Round and Range | induction over formulas that compares the values in two memories; monotonicity of rounding with gradual underflow by cases of the exponents |
| C112 | Near: no further model, formulas and rounding are those of areas Round and Range | numbers of the format as integers times powers of two; the difference is an integer multiple of the smaller power, bounded by the smaller operand; signs by monotonicity and the smallest number of the format |

## 4. What the seeded wrong programs taught

`seeded/LOG.jsonl` has one line per attempt. Theorems that were tightened because a wrong
model still satisfied them are named there under `tightened`.

## 5. Where the code deviates

Each of these is a theorem with a concrete witness (named) or, where marked, an
observation made while reading that is not formalised.

Geometry and iteration
* `MemoryWindow::sanity_check` does not require offset + extent ≤ global size: `C02_sanity_check_accepts_overhang`.
* `end()` of a window with a zero extent divides by zero: `C05_empty_window_end_is_ub`.
* `GhostData` does not refresh its is-infinite flag in `+=`/`-=`: `C08_violated_by_add`, `C08_violated_by_sub`.
* `reset_valid_ghosts` aborts for ghosts in inactive directions and accepts growth beyond the allocation:
  `C10_inactive_direction_reset_aborts`, `C10_growth_not_rejected`.
* The windowed-view constructor does not compare global sizes: `C51_block_mismatch_accepted`.
* The single-value check uses `&&` where `||` is meant: `C52_single_value_not_enforced`.
* Debug assertions of `operator()(i,j,k)` reject valid cells of offset windows: `C20_valid_index_aborts`.
* `Grid::set_coord` is shifted by the window offset: `C46_wrong_when_window_is_offset`.

Masks
* Ghosts in an inactive direction: out-of-bounds reads and aliased bits (`C11_inactive_direction_*`).
* The destructor of a GPU mask returns device memory to the CPU pool: `C56_gpu_mask_poisons_pool`; the
  constructor leaks when it refuses points on a GPU: `C56_refused_gpu_mask_leaks`.
* Copies keep pointers to released consumer memory and can overwrite other masks: `C57_stale_copy_overwrites`. `has_consumers` looks at GPU 0 only (`C57_has_consumers_misses_devices`); `find_consumer` throws for a CPU mask asked for the CPU with another device number (`C57_find_consumer_throws`).

Memory and handles
* The pool does not notice a block returned twice: `C13_double_put_aliases`.
* `CUDASharedPointer`: assigning a default-constructed pointer is undefined, destructors leak their counters, the
  device recorded for a raw address is asked for after `CudaFree` changed it: `C58_assign_unset_ub`,
  `C58_destructor_leaks`, `C58_wrong_device_recorded`.
* CUDA build: one failed pinned allocation makes the pool `delete[]` pinned memory, and a block returned with
  the wrong type is handed out as the other type: `C55_mixed_release`, `C55_wrong_type_poisons`.
* `SpatFldPtr`: detach of a shared handle, self-assignment, copy of a null handle: `C15_*`.
* Scratch fields: a one-cell direction with a boundary flag gets two cells, and a prototype with reset ghosts
  loses its interior: `C17_inactive_direction_differs`, `C17_reset_prototype_loses_interior`.
* Copies of a field are not told about consumers: a copy made before `add_consumer` can still be written and leaves
  the device stale, a copy that removes its own consumer can write the original's CPU copy, and a copy shows
  memory that was given back: `C59_stale_on_device`, `C59_copy_writes_consumer`, `C59_copy_shows_other_field`.
* A view with smaller global dimensions is assigned `allocatedBytes_` of the original: `C60_view_copies_too_much`.
* `reset_values` packs the window on the CPU but copies in memory order on a device: `C61_device_and_cpu_differ`.
* Non-const `end()` ignores read-only; a refused `add_consumer` leaves the field read-only for ever:
  `C18_end_gives_mutable_access`, `C18_refused_consumer_freezes_forever`.

Nebo
* `interior_assign` aborts in a direction of extent one with nominal ghosts: `C22_interior_assign_flat_refused`.
* An in-place assignment that reads shifted cells sees new values: `C22_inplace_shift_reads_new_values`.
* A partition count ≤ 0 assigns nothing: `C23_nonpositive_count_assigns_nothing`.
* The GPU launch grid is computed before ghosts are reset and misses interior cells:
  `C24_reduced_ghosts_miss_interior_cells`.
* Interior reductions leave out the extra cells on a plus boundary: `C28_boundary_cells_left_out`.
* `NeboStencilCoefCollection<1>::get_coef(1)` answers: `C48_single_coefficient_accepts_index_one`.

Operators, boundary conditions, points, functions
* Operator ids restart after `empty_database`: `C30_ids_start_again_after_empty`.
* The list form of `BoundaryConditionOp` differs from the point form: `C33_no_side_differs`, `C33_ghost_layers_differ`.
* `LagrangeInterpolant`: order zero and too few points are undefined: `C41_order_zero_undefined`, `C41_too_few_points_undefined`.
* Particles: mesh origin ignored, left overhang misplaced, right overhang undefined, zero size deposits nothing: `C43_*`.
* Marker fields on offset windows list other cells; index lists of the wrong length: `C44_marker_window_differs`, `C44_wrong_length`.
* Comparisons: NaN equals anything with non-zero tolerance; a negative tolerance accepts; a first field whose norm is not finite (one NaN or infinity is enough) equals every field in the form without an offset: `C45_nan_equals_anything`, `C45_negative_tolerance_accepts`, `C45_norm_not_finite_accepts`.
* `GaussianFunction::dx` is not the derivative; `HyperTanFunction` has none: `C47_gaussian_dx_wrong`, `C47_tanh`.

Threads
* Zero-sized pool grown later never runs; shrinking and a failed replacement lose wake-ups: `C35_*`.
* `clear()` does not notify waiters: `C36_clear_forgets_waiters`.
* Shrinking overshoots; growing misses a leaving worker: `C37_shrink_overshoots`, `C37_grow_misses_leaving_worker`.
* A task that throws cancels a shrink in progress: the replacement sets the requested count to the present count of workers: `C37_failure_cancels_shrink`.
* The merge sort example creates its pool without threads and resizes it, so nothing ever runs and the first `wait()` never returns: `C74_example_hangs`, from `C35_zero_pool_never_starts`.
* A task that throws never posts and the assigning thread blocks: `C38_missing_post_blocks`.
* Raising the active limit wakes nobody: `C39_raise_not_noticed`.
* `resize_pool` returns its argument; the early exit of `set_pool_capacity` keeps an empty pool: `C40_resize_pool_return_value`, `C40_early_exit_keeps_pool_empty`.
* `cancel()` succeeds after delivery, waiters of cancelled futures are stranded: `C49_cancel_succeeds_after_value`, `C49_cancel_strands_waiter`.
* The memory pool has no lock of its own; field constructors/destructors use it bare and `add_consumer` under another mutex than the store: `C68_constructor_gets_same_block`, `C68_consumer_gets_same_block`.
* The reference counts of `SpatFldPtr` are plain `int`s changed without a lock: `C69_overlapping_copies_release_early`, `C69_overlapping_drops_leak`, `C69_overlapping_drops_release_twice`.
* `<<=` resets the valid ghosts of a copy of the left-hand field only (NeboLhs.h:56-58, 164-169, 387), so ghost cells that were not computed still count as valid and are used by later expressions: `C70_stale_ghosts_used`.
* Cell counts are `int` products: a field of 2^31 or more cells (a cube of 1291 per side) overflows in its constructor: `C71_limit_is_sharp`, `C71_large_field_overflows`; mask iterators overflow slightly earlier: `C71_mask_end_overflows`.
* `end()` of a window that starts inside a plane and reaches the last plane (the interior of a 2-D field) is a pointer beyond one-past-the-end of the array, which C++ leaves undefined: `C71_end_pointer_in_block`.
* On meshes with a single cell in a direction, fields have no ghost memory there although their ghost counts say so. `interior_assign` is refused for such fields with two or more ghost layers counted (`C72_interior_assign_refused`), and fields whose ghost counts differ there cannot be combined (`C72_other_ghosts_refused`).
* A loop with iterators over fields of different shapes is not detected as long as no source has fewer cells than the destination: `C76_shapes_not_compared`.
* In `double` the box filter of a constant field need not be that constant: `C77_filter_changes_constants` (1 + 2^-52 becomes 1). The exact statement is C66.
* `write_matlab` prints 15 digits, where a `double` needs 17: `C78_values_not_determined`. It does not report a file it cannot open (`C78_unopened_not_reported`), and for a field without values in CPU memory it throws only after having replaced the file (`C78_failure_destroys_file`).
- In a build with `NEBO_GPU_TEST` an assignment copies back the whole memory of a field that was zeroed before the GPU wrote the assigned cells. Ghost cells that are not assigned, and for a field that is a window on larger memory everything outside the window, become zero (`C86_rest_is_zeroed`). `f <<= shift(f)` also gives other values than in a build without CUDA (`C86_in_place_differs`).
- `update_memory_statistics` loops over the devices but never makes one current, so `cudaMemGetInfo` answers for the device that happens to be current each time: all devices report its numbers (`C87_reports_current_device`, `C87_wrong_device`, `C87_usage_of_other_device`). The claim holds on machines with one device (`C87_one_device_partial`).
- The seven-point kernel reads two elements per thread before checking that the thread has a cell: for small fields these reads are out of bounds. The exact condition is proved (`C90_out_of_bounds`, `C90_small_field`); it is met from 16 by 16 by 4 up (`C90_room`), for which the claim holds (`C90_every_schedule_partial`).
- It divides the differences of all three directions by the square of the first spacing (`C90_spacing_ignored`).
- The test of the kernel compares a plane with its boundary, which neither program computes: it passes exactly if two uninitialised arrays agree there (`C90_test_boundary`).
- `vecAdd` and `vecMul` divide by zero for vectors without elements (`C91_empty`).
- `end()` of a view of a mask without cells in the first or second direction divides by zero, though the view is accepted (`C92_empty_view`).
- A view of a mask reports all ghosts of the field as valid although the mask refuses indices beyond the ghosts it was built with (`C92_valid_ghosts_reset`).
- Views of equal size of fields with different ghost counts may be assigned to each other; the outer cells are then skipped and the others receive the values of the wrong cells (`C93_unequal_ghosts_displaced`).
- test/StencilChainTest.cpp does not compile: it calls `get_minus_coef` and `get_plus_coef`, which no longer exist.
- The sections of tutorial.cpp on futures, scheduling and priorities never end: they create the pool with no threads, and `resize` leaves the limit on active workers at 0 (`C94_tutorial_hangs`, `C94_empty_pool_never_ends`, `C94_empty_pool_hangs`).
- tutorial.cpp:145-146 passes an uninitialised `xtime` to `tp.wait(t)`; not modelled beyond the immediate return on an idle pool.
- C96: the first use of a pool by several threads races: the member `init_` is read and written by `ThreadPool::self()` and `ThreadPoolFIFO::self()` without a lock (`C96_race_on_first_use`), and threads that do nothing but ask for the number of threads can be told that they attempt to insert a pool that already exists (`C96_warning_on_first_use`). The results are right all the same (`C96_serial_partial`), and a program that makes one call before it starts its threads has neither race nor warning (`C96_prepared`).
- C97: a scratch field is filled with zeros in the debug build only (`C97_scratch_differs`). Where the debug build refuses, the release build may leave interior cells unassigned (`C97_interior_left_unassigned`; exactly those where the expression has no value: `C97_assign_where_defined`), use the value of a cell of another row in `interior_assign` (`C97_interior_assign_wrong_cell`), read outside the memory for an operand on a smaller mesh (`C97_outside_memory`) or for an element or particle outside (`C97_element_outside`, `C97_particle_outside`), build a mask of other points (`C97_mask_wrong_point`), ignore the surplus of a list of points or of the values of a table (`C97_points_too_long`, `C97_longer_table`).
- C98: only the debug build waits for the stream of an assignment (NeboLhs.h:272-286, 301-313). In the release build `A <<= 5` and `B <<= A` with fields in different streams may give `B` the old contents of `A` (`C98_release_may_use_old_data`), and a copy of `A` to the host may fetch the old contents if the stream of `A` does not block the default stream (`C98_release_may_copy_old_data`); the program has to wait itself.
- C100: nothing compares the mesh of the destination with that of the operands. An operand on a larger mesh is accepted, and its cells are used in the order in which they are stored: a field of 4x4 cells assigned from one of 6x4 gets the fifth cell of the first row in the first cell of its second row (`C100_larger_accepted`); with two threads the result is another one (`C100_parts_change_result`). `C100_in_order` says exactly which cell is used, `C100_longer_correct` when it is the right one, `C100_smaller_refused_partial` that a smaller mesh is refused.

Observed, not formalised
* The patch constructors of the field functions do not instantiate; header and definition of the Gaussian
  constructor name their parameters differently.
* `NTHREADS=0` registers one thread but creates none; `m_executing` is not initialised.
* `NeboStencil::reduce_init` calls a function that does not exist (stencils in reductions do not compile);
  `NeboBooleanSingleValueExpression` has no `&&`, `||`, `!` overloads.
* The semaphore of `thread_parallel_assign` is a local object the last task may still be inside of when it is destroyed.
* `thread_pool::schedule` accepts tasks (and returns true) after the pool has been shut down, and between the wait and
  the termination of a shutdown; they are never executed (`C62_task_after_shutdown_is_lost`, `C62_task_during_shutdown_is_lost`).
  With `immediately` a woken worker may still start such a task (`C62_immediately_still_starts_tasks`).
* The destructor of a pool without threads hangs if a task is pending (`C62_empty_pool_hangs`).
* The timed `wait` may return false although nothing is left to do (`C63_false_although_reached`).
* A thread-parallel assignment performed by a task of the pool that serves assignments can never return once every worker does so: `C75_nested_assignments_never_return`. Nothing in the interface warns of it.

## 6. Axioms per theorem

Obtained with `#print axioms` on every theorem in `MANIFEST.json`
(630 theorems). No theorem depends on anything else.

**(none)** (18): C02_sanity_check_accepts_overhang, C03_refine_rejects, C08_violated_by_add, C08_violated_by_sub, C10_inactive_direction_reset_aborts, C10_growth_not_rejected, C13_double_put_aliases, C17_inactive_direction_differs, C17_reset_prototype_loses_interior, C18_interior_refused, C41_lengths_checked, C48_collections_keep_order, C50_stagger, C51_block_mismatch_accepted, C52_single_value_not_enforced, C71_large_field_overflows, C91_empty, C97_element_outside

**propext** (36): C02_eq_ops, C07_eq_componentwise, C18_mutable_access_refused_partial, C18_assignment_refused, C19_assign_all_or_nothing, C20_valid_index_aborts, C32_nebo_face_points, C35_zero_pool_never_runs, C35_shrink_loses_wakeup, C35_failed_replacement_loses_wakeup, C36_clear_forgets_waiters, C37_shrink_overshoots, C37_grow_misses_leaving_worker, C37_failure_cancels_shrink, C39_raise_not_noticed, C40_remove, C40_unknown, C40_capacity_keeps_limit, C40_no_threads, C40_resize_pool_return_value, C40_early_exit_keeps_pool_empty, C49_value_permanent, C49_cancelled_stays_unready, C49_cancel_succeeds_after_value, C50_faces, C50_face_staggering, C54_max_min, C58_double_wrap_throws, C62_task_during_shutdown_is_lost, C62_empty_pool_hangs, C62_immediately_still_starts_tasks, C63_pool_unaffected, C63_false_although_reached, C76_reference_types, C82_empty, C96_race_on_first_use

**propext, Quot.sound** (94): C05_empty_window_end_is_ub, C11_inactive_direction_out_of_bounds, C11_inactive_direction_aliases, C15_self_assignment_ub, C15_copy_of_null_ub, C16_copies_own_nothing, C18_add_consumer_freezes, C18_refused_consumer_freezes_forever, C18_copy_stays_read_only, C20_outside_refused, C22_interior_assign_flat_refused, C22_inplace_shift_reads_new_values, C23_nonpositive_count_assigns_nothing, C26_first_clause_wins, C26_plain_iff_all_plain, C26_defined_where_all_parts_are, C30_register_returns_fresh_id, C30_retrieve_by_id, C30_id_keeps_its_operator, C30_retrieve_without_id, C30_empty_forgets, C30_owns_operators, C30_ids_start_again_after_empty, C31_basic_operators_present, C34_policies, C34_fifo, C38_semaphore_safe, C38_semaphore_no_lost_post, C38_assign_returns_after_all, C38_assign_returns, C38_missing_post_blocks, C40_insert, C40_set_capacity, C40_capacity_is_target, C40_resize_pool_partial, C41_order_zero_undefined, C43_nonuniform_mesh_rejected, C48_single_coefficient_accepts_index_one, C49_value_is_result, C49_wait, C49_delivers_partial, C49_cancel_strands_waiter, C50_componentwise, C50_points_within_one_cell, C50_reversed_offsets_negated, C54_overloads_complete, C55_mixed_release, C55_wrong_type_poisons, C56_copies_own_nothing, C56_gpu_mask_poisons_pool, C56_refused_gpu_mask_leaks, C57_stale_copy_overwrites, C57_has_consumers_misses_devices, C58_invalid_device, C58_wrong_device_recorded, C59_stale_on_device, C59_copy_writes_consumer, C59_copy_shows_other_field, C59_has_consumers_partial, C59_has_consumers_misses_devices, C60_view_copies_too_much, C61_device_and_cpu_differ, C63_false_only_when_time_is_up, C68_constructor_gets_same_block, C68_consumer_gets_same_block, C69_overlapping_copies_release_early, C69_overlapping_drops_leak, C69_overlapping_drops_release_twice, C75_nested_assignments_never_return, C87_wrong_device, C87_usage_of_other_device, C87_snapshot, C87_zero_before_update, C88_peer_copy, C88_memset, C90_room, C92_unsigned_index, C93_unequal_ghosts_displaced, C94_after_future, C96_warning_on_first_use, C97_access_same, C97_fields_same, C97_masks_same, C97_particles_same, C97_scratch_differs, C97_interior_left_unassigned, C97_interior_assign_wrong_cell, C97_outside_memory, C97_mask_wrong_point, C97_tables_same, C97_pool_same, C99_gpu_same, C100_parts_change_result, C102_registered

**propext, Classical.choice, Quot.sound** (482): C01_ijkToFlat_spec, C01_ijkToFlat_intermediates, C01_ijk_flat_ijk, C01_flat_ijk_flat, C02_flatIndex_injective_inbounds, C02_inverse_lookups, C02_fits_accepted, C02_accepted_not_below, C03_refine_tiles, C03_refine_balanced, C04_kth_increment, C04_reaches_end, C04_each_cell_once, C05_history_independent, C05_order_and_difference, C05_index, C06_deref_exact, C06_before_begin_throws, C06_index_outside_throws, C07_add_finite, C07_sub_cases, C07_add_sub_cancel, C07_infinite_absorbs, C07_min_glb, C07_point_to_ghost, C08_flag_partial, C09_field_layout, C10_path_independent, C10_window_is_grown_interior, C10_reversible, C10_shrink_accepted, C10_constructed_field_grown, C11_mask_is_point_list, C11_outside_point_rejected, C11_field_mask_region, C12_history_independent, C12_iteration_values, C12_iteration_agrees_with_query, C12_field_mask_iteration, C13_get_fresh_and_large, C13_put_returns, C13_block_has_one_size, C13_destroy, C14_accounting, C14_allocates_only_if_needed, C15_released_exactly_once_partial, C15_safe_at_every_point_partial, C15_detach_shared_releases_live_field, C16_histories, C16_live_owner_keeps_memory, C16_destroy, C16_no_leak, C17_scratch_geometry_partial, C17_scratch_memory, C18_end_gives_mutable_access, C18_const_access, C20_call_partial, C20_call_full_window, C21_never_outside_memory, C21_reads_only_valid_cells, C22_assign_pointwise, C22_interior_assign_pointwise, C22_undefined_interior_refused, C22_assign_any_mesh, C22_assign_in_place, C23_parallel_equals_sequential, C23_parallel_any_mesh, C24_one_thread_per_column, C24_gpu_equals_sequential_partial, C24_gpu_assigns_launched_cells, C24_reduced_ghosts_miss_interior_cells, C24_backend_choice, C25_split_fits, C25_locations_each_once, C25_parts_cover_exactly_once, C26_assign_cond, C27_fold_all_cells, C27_reduce_all_cells, C27_max, C27_min, C27_sum_and_norm, C28_interior_fold, C28_interior_reduce, C28_interior_sum_and_norm, C28_interior_of_field_partial, C28_boundary_cells_left_out, C29_exact_on_affine_functions, C29_apply_to_field, C31_each_type_registered_once, C31_called_twice, C31_other_types_unchanged, C32_operator_gives_value, C32_outside_refused, C32_registered_operators, C32_several_points, C32_nebo_builder, C33_list_is_points_partial, C33_no_side_differs, C33_ghost_layers_differ, C33_direct_list_is_points, C34_exactly_once, C34_no_task_twice, C34_lifo, C34_prio, C35_no_lost_wakeup, C35_drains, C35_zero_pool_never_starts, C36_wait_returns_when_idle, C36_wait_threshold, C36_counters, C36_waiters_released, C36_sleeping_client_has_reason, C37_shrink_settles_partial, C37_grow_settles_partial, C37_terminate, C37_failure_keeps_count, C38_every_part_written_once, C39_limit_at_start, C39_beyond_limit_drains, C39_limit, C40_capacity_counts_workers, C41_exact_on_polynomials, C41_default_order, C41_window, C41_centred, C41_exact_at_nodes, C41_too_few_points_undefined, C42_exact_on_polynomials, C42_same_polynomial, C43_deposit_conserves, C43_interpolates_constants, C43_deposit_weights_partial, C43_shares_sum_to_one, C43_interpolation_weights_partial, C43_transposed, C43_uniform_mesh_accepted, C43_mesh_origin_ignored, C43_left_overhang_misplaced, C43_right_overhang_undefined, C43_no_size_deposits_nothing, C44_put_points, C44_extract_points, C44_extract_put, C44_put_extract, C44_marker_numbers, C44_marker_list_partial, C44_wrong_length, C44_marker_window_differs, C45_exact, C45_absolute, C45_relative, C45_relative_default, C45_ulps, C45_windows_differ, C45_reflexive, C45_absolute_symmetric, C45_scalar_ulps, C45_scalar, C45_nan_equals_anything, C45_negative_tolerance_accepts, C45_absolute_any_values, C45_relative_any_values, C45_norm_not_finite_accepts, C45_tolerance_not_finite_accepts, C45_relative_not_symmetric, C46_set_coord_values, C46_coordinates_partial, C46_wrong_when_window_is_offset, C47_linear, C47_sin, C47_gaussian_partial, C47_gaussian_dx_wrong, C47_tanh, C48_get_coef_partial, C48_points_and_coefficients_match, C50_choices, C50_nonzero_dir, C51_view, C52_single_value_partial, C53_reset_values, C54_operator_meaning, C54_assign_operator, C55_get, C55_put, C55_accounting, C55_release_partial, C56_histories_partial, C56_live_mask_keeps_memory, C56_no_leak, C57_contents_partial, C57_originals_current, C57_available, C57_originals_careful, C57_find_consumer, C57_find_consumer_throws, C58_histories_partial, C58_refcount, C58_held_is_live, C58_freed_with_last, C58_raw_untouched, C58_right_device, C58_one_device, C58_get_shared, C58_assign_unset_ub, C58_destructor_leaks, C59_same_values_everywhere_partial, C59_available_after_add_consumer, C59_other_fields_unchanged_partial, C59_write_partial, C60_assign, C61_initial_values_partial, C62_waits_for_all_tasks, C62_every_task_executed, C62_waits_for_active_tasks, C62_immediately, C62_nothing_runs_afterwards, C62_shutdown_returns, C62_task_after_shutdown_is_lost, C63_true_when_reached, C63_returns_when_time_is_up, C64_sides_located, C64_difference_of_sides, C64_divergence_theorem, C64_interior_sum, C65_summation_by_parts, C65_adjoint, C66_bounds, C67_linear, C68_one_at_a_time, C68_never_fails, C68_no_sharing, C68_linearizable, C68_accounting, C68_deadlock_free, C68_calls_finish, C69_apart, C70_values_partial, C70_composed_equals_stepwise_partial, C70_stale_ghosts_used, C71_index_maps, C71_window, C71_refine, C71_field_iterator, C71_mask_iterator, C71_limit_is_sharp, C71_mask_end_overflows, C71_end_pointer_in_block, C72_built, C72_assign_partial, C72_across_refused, C72_operator_across_refused, C72_interior_assign_refused, C72_other_ghosts_refused, C73_step, C73_steps, C73_program, C73_energy, C73_equilibrium, C73_maximum, C74_fork_join, C74_same_result, C74_comes_to_an_end, C74_merge_sort, C74_merge_sort_ends, C74_merge_precondition, C74_example_hangs, C74_race_loses_update, C75_each_caller_as_if_alone, C75_all_done, C75_semaphore_outlives_its_users, C75_no_race, C75_comes_to_an_end, C75_can_always_finish, C76_paired_by_position, C76_same_extents, C76_short_source_throws, C76_shapes_not_compared, C76_interior_loop_is_interior_assign, C76_loop_is_assign, C76_reference_two_point, C76_reference_four_point, C76_reference_finite_difference, C76_reference_null, C76_reference_box_filter, C76_new_fields_are_twins, C77_nearest_even_is_format, C77_nearest_even, C77_growth, C77_assign, C77_sum, C77_norm, C77_operators, C77_divergence_theorem, C77_conservation, C77_difference_of_equal_values, C77_interpolants_bounded, C77_filter_changes_constants, C78_all_cells, C78_interior_cells, C78_file_determines_values, C78_unopened_not_reported, C78_failure_destroys_file, C78_values_not_determined, C79_averages, C79_derivatives, C79_directional_derivatives, C79_averages_attained, C79_derivatives_attained, C79_second_derivative, C80_error, C80_linear, C81_program, C81_same_result, C82_calls, C82_ends, C82_engaged, C83_averages, C83_derivatives, C84_step, C84_program, C84_attained, C85_derivatives, C85_directional_derivatives, C85_averages, C86_gpu_test_assign_partial, C86_equals_cpu_partial, C86_rest_is_zeroed, C86_in_place_differs, C87_reports_current_device, C87_one_device_partial, C87_bad_device_refused, C87_allocation, C88_round_trip, C88_others_untouched, C88_legal_runs, C89_commands, C89_assign, C89_program, C89_values, C89_accuracy, C89_same_result, C90_every_schedule_partial, C90_result, C90_ends_partial, C90_out_of_bounds, C90_small_field, C90_host, C90_test_inner, C90_test_boundary, C90_spacing_ignored, C91_vectors_partial, C91_test, C92_accepted, C92_contents, C92_indexing, C92_composition, C92_expressions, C92_empty_view, C92_valid_ghosts_reset, C93_assignment, C93_every_box, C93_by_hand, C94_ends, C94_all_executed, C94_after_wait, C94_future_of_throwing_task, C94_empty_pool_never_ends, C94_empty_pool_hangs, C94_tutorial_section1, C94_quickstart, C94_tutorial_hangs, C94_nothing_to_do, C94_compile_tests, C95_program, C95_ends, C95_forever, C95_same_result, C96_serial_partial, C96_answers, C96_final, C96_registered_once, C96_ends, C96_prepared, C97_assign_same, C97_reductions_same, C97_programs_same, C97_assign_where_defined, C97_particle_outside, C97_points_same, C97_points_too_long, C97_longer_table, C98_ordered, C98_debug, C98_one_stream, C98_unordered_may_swap, C98_release_may_use_old_data, C98_release_may_copy_old_data, C99_threads_same, C99_threads, C99_programs, C99_gpu, C100_smaller_refused_partial, C100_in_order, C100_longer_correct, C100_larger_accepted, C101_step, C101_heat, C101_bounds, C101_limit, C101_stable, C101_converges, C101_insulated, C101_order, C102_accuracy, C102_waves, C102_accuracy_attained, C102_mean, C102_across_refused, C102_separable, C102_affine, C102_bounds, C102_chosen, C102_test, C103_rhs, C103_converges, C103_steps, C103_uniform, C103_order, C104_program, C104_transfer, C104_same_result, C104_bounds, C104_insulated, C104_steps, C104_order, C105_operator_gives_value, C105_several_points, C105_registered_operators, C105_test_accepts, C105_nebo_builder, C105_value_can_be_lost, C106_deposit_conserves, C106_interpolation_close, C106_deposit_placed, C106_interpolation_weighted, C106_on_mesh, C106_double_is_nearest, C106_small_particle_lost, C107_close_to_polynomial, C107_linear, C107_exact_at_points, C107_constant_not_kept, C107_total_error, C107_total_error_linear, C108_programs_within_range, C108_double, C108_double_is_limited, C108_assign, C108_sum, C108_operators, C108_within_range, C108_overflow, C108_underflow, C109_exact, C109_assign, C109_sum, C109_programs, C109_double, C110_programs, C110_rewrites, C110_nearest_even, C110_gradual, C110_other_rules, C111_operators, C111_programs, C111_positive_programs, C111_moves, C111_positive, C111_sum, C111_nearest_even, C112_difference, C112_far_not_exact


