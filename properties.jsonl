{"id": "C01", "title": "Flat index and ijk index are mutually inverse", "statement": "For a block of dimensions (d0,d1,d2), ijk_to_flat and flat_to_ijk accept exactly the in-range indices, are inverse to each other there, every flat index produced lies in [0,d0*d1*d2), and every intermediate product stays within that range too.", "quantifier": "all positive dimension triples and all index triples / flat indices", "why_tests_cant": "The index space is unbounded; tests sample a few shapes.", "anchors": ["spatialops/structured/IntVec.h: ijk_to_flat, flat_to_ijk"]}
{"id": "C02", "title": "A memory window addresses distinct, in-bounds memory cells", "statement": "For a window that fits in its block (offset+extent<=npts), flat_index maps different in-window locations to different positions, all inside [0,glob_npts), in fortran order, and never trips an assertion.", "quantifier": "all windows that fit in their block, all pairs of locations", "why_tests_cant": "Needs injectivity over all windows and pairs of points.", "anchors": ["spatialops/structured/MemoryWindow.h: MemoryWindow::flat_index", "spatialops/structured/MemoryWindow.cpp: MemoryWindow::sanity_check"]}
{"id": "C03", "title": "refine tiles a window", "statement": "For every accepted split pattern the sub-windows returned by refine for the different locations are non-empty, pairwise disjoint, together cover exactly the cells of the window, stay inside it, and their extents differ by at most one per direction.", "quantifier": "all windows, all split patterns not exceeding the extents, all locations", "why_tests_cant": "Tiling is a statement about every split of every extent, including all remainders.", "anchors": ["spatialops/structured/MemoryWindow.cpp: MemoryWindow::refine"]}
{"id": "C04", "title": "Iterating a window visits each cell exactly once, in fortran order", "statement": "Starting at begin() and applying ++, the k-th position denotes the k-th cell (x fastest) of the window at exactly the address flat_index gives; no earlier position compares equal to end(); after local_npts() steps the iterator equals end().", "quantifier": "all non-empty windows that fit in their block", "why_tests_cant": "Row/plane wrap-around arithmetic must hold for all extents and strides.", "anchors": ["spatialops/structured/MemoryWindow.h: FieldIterator, ConstFieldIterator", "spatialops/structured/SpatialField.h: begin, end"]}
{"id": "C05", "title": "Random access on field iterators agrees with repeated stepping", "statement": "For any position in [begin,end] and any change that stays inside [begin,end]: += n is the same state as n increments (or -n decrements), ++ and -- cancel, difference of iterators is the number of steps between them, and the pointer comparisons order positions the same way as that difference.", "quantifier": "all windows, all positions, all signed changes, all histories of ++, --, +=, -=", "why_tests_cant": "Two code paths with truncating division; must agree on all inputs and all histories.", "anchors": ["spatialops/structured/MemoryWindow.h: FieldIterator::operator+=, operator++, operator--, operator-, operator<"]}
{"id": "C06", "title": "Dereference checks are exact", "statement": "After any in-range history of iterator operations the debug dereference check passes exactly when the iterator denotes a cell (and throws at end()); a passing dereference touches an address inside the allocation.", "quantifier": "all windows, all in-range histories of iterator operations", "why_tests_cant": "Quantifies over all histories.", "anchors": ["spatialops/structured/MemoryWindow.h: FieldIterator::operator*"]}
{"id": "C07", "title": "Ghost-cell arithmetic", "statement": "GhostData addition and subtraction of finite non-negative ghosts are componentwise and cancel; subtraction is rejected exactly when some component would go negative or the subtrahend is infinite; infinite ghosts absorb addition; min is the componentwise greatest lower bound; equality is componentwise.", "quantifier": "all ghost descriptors", "why_tests_cant": "Algebraic laws over unbounded integers.", "anchors": ["spatialops/structured/GhostData.h", "spatialops/structured/GhostData.cpp: GhostData::operator+=, operator-=, min, point_to_ghost"]}
{"id": "C08", "title": "The infinite-ghost status always reflects the stored ghosts", "statement": "After any sequence of ghost operations, the descriptor is treated as infinite exactly when all its six counts are at least GHOST_MAX.", "quantifier": "all operation histories on GhostData", "why_tests_cant": "Depends on the history: += and -= do not recompute the flag.", "anchors": ["spatialops/structured/GhostData.cpp: is_ghost_infinite, operator+=, operator-=, set_minus, set_plus"]}
{"id": "C09", "title": "Field geometry: ghost and interior windows are consistent", "statement": "The window built by get_window_with_ghost for n interior points, ghosts g and boundary info bc is legal, and a field built on it has an interior window that lies inside it, starts after the minus ghosts and has exactly n (+1 per active boundary extra) points per active direction; an inactive direction has one point and no ghosts.", "quantifier": "all interior sizes, ghost counts and boundary flags", "why_tests_cant": "All combinations of sizes, active/inactive directions and boundaries.", "anchors": ["spatialops/structured/FVTools.h: get_dim_with_ghost, get_window_with_ghost", "spatialops/structured/SpatialField.h: SpatialField constructor", "spatialops/structured/BoundaryCellInfo.h"]}
{"id": "C10", "title": "reset_valid_ghosts is path independent and reversible", "statement": "The active window after reset_valid_ghosts(g) is the interior grown by g whatever resets were made before it; resetting to the previous ghosts restores the previous window; the window stays inside the allocation as long as g does not exceed the total ghosts.", "quantifier": "all fields without ghosts in directions of one cell (where the interior fills the allocation) and all sequences of reset_valid_ghosts", "why_tests_cant": "Quantifies over all reset histories.", "anchors": ["spatialops/structured/SpatialField.h: reset_valid_ghosts"]}
{"id": "C11", "title": "A mask is exactly its point list", "statement": "A SpatialMask built from a list of points answers true at an index exactly when that index is in the list, for every index in the valid (ghosted) region; an index outside that region is rejected; every bit touched lies inside the allocated words.", "quantifier": "all prototype fields whose ghosted region lies inside their allocation (no ghosts in directions of one cell), all point lists (any length, duplicates), all indices", "why_tests_cant": "Bits are packed 32 per word with strides; collisions can occur for specific shapes only.", "anchors": ["spatialops/structured/BitField.h: BitField::add_point, find_position, operator()", "spatialops/structured/SpatialMask.h"]}
{"id": "C12", "title": "Mask iteration agrees with mask indexing and with field iteration", "statement": "The k-th element obtained by iterating a mask over a window is the mask value at the k-th cell of that window (the cell the field iterator visits k-th); +=, ++ and -- agree, the bit position stays normalised, and the iterator reaches end() after local_npts() steps.", "quantifier": "all masks, windows, positions and changes", "why_tests_cant": "Carry arithmetic across 32-bit words, rows and planes for every shape.", "anchors": ["spatialops/structured/BitField.h: ConstMaskIterator, BitField::begin, end"]}
{"id": "C13", "title": "Memory pool never hands out live memory and blocks are large enough", "statement": "Under any history of get and put in which each block is put at most once per get, a block returned by get is not held by anyone else and its capacity is at least the requested size; put blocks are reusable.", "quantifier": "all histories of get/put with arbitrary sizes", "why_tests_cant": "Aliasing only shows after particular histories of sizes.", "anchors": ["spatialops/structured/MemoryPool.h", "spatialops/structured/MemoryPool.cpp: Pool::get, Pool::put"]}
{"id": "C14", "title": "Memory pool accounting", "statement": "After any such history active() equals the number of blocks currently held by users and total() equals the number of blocks ever allocated; a get allocates only if no suitable free block of its size class exists.", "quantifier": "all histories of get/put", "why_tests_cant": "History dependent counters.", "anchors": ["spatialops/structured/MemoryPool.h: Pool::active, Pool::total", "spatialops/structured/MemoryPool.cpp: Pool::get, Pool::put"]}
{"id": "C15", "title": "Reference-counted field pointers release the field exactly once", "statement": "For any history of creating, copying, assigning, detaching and destroying SpatFldPtr handles, the field stays alive while any handle refers to it, and is released (returned to the store / deleted) exactly once, when the last handle goes.", "quantifier": "all histories of handle operations", "why_tests_cant": "Premature or double release depends on the order of copy/assign/detach/destroy.", "anchors": ["spatialops/structured/SpatialFieldStore.h: SpatFldPtr"]}
{"id": "C16", "title": "Only the owner of field memory returns it", "statement": "For any history of creating fields with internal storage, making shallow or windowed copies, and destroying them in any order, each allocated block is returned to the pool exactly once, by the field that allocated it, and blocks of live owners are never returned.", "quantifier": "all histories of construction, shallow copy and destruction", "why_tests_cant": "History dependent.", "anchors": ["spatialops/structured/SpatialField.h: constructors, ~SpatialField"]}
{"id": "C17", "title": "Scratch fields from the store have the geometry of the requested field type", "statement": "A scratch field obtained from a prototype has the prototype's interior adjusted by the difference of the boundary-extra cells of the two field types in the directions with a physical boundary, fresh memory of exactly its size, and the prototype's ghosts.", "quantifier": "all prototypes, boundary flags and field-type pairs", "why_tests_cant": "All combinations.", "anchors": ["spatialops/structured/SpatialFieldStore.h: SpatialFieldStore::get, get_from_window"]}
{"id": "C18", "title": "A read-only field gives out no mutable access", "statement": "Once a field is read-only (it has consumers), every API call that would give mutable access to its values (begin, end, interior_begin, interior_end, field_values, indexing, assignment) throws, while const access still works; interior iterators are refused on resized fields.", "quantifier": "all field states (memory type, read-only flag, window status) and all accessors", "why_tests_cant": "State/accessor decision table.", "anchors": ["spatialops/structured/SpatialField.h: begin, end, interior_begin, interior_end, field_values, operator=, operator(), operator[]"]}
{"id": "C19", "title": "Field assignment copies all values or nothing", "statement": "operator= between fields with equal windows makes every value of the destination memory equal to the source's and changes nothing else; with differing windows or a read-only destination it throws and changes nothing; self-assignment is a no-op.", "quantifier": "all fields and memory contents", "why_tests_cant": "All contents, windows, aliasing.", "anchors": ["spatialops/structured/SpatialField.h: operator="]}
{"id": "C20", "title": "Indexing a windowed field", "statement": "f(ijk) refers to the ijk-th cell of the field's window, for every ijk in the window.", "quantifier": "all windows and indices", "why_tests_cant": "The debug assertion compares a window-relative index with the offset, which only matters on offset windows.", "anchors": ["spatialops/structured/SpatialField.h: operator()"]}
{"id": "C21", "title": "Nebo assignment never reads or writes outside valid memory", "statement": "When a Nebo assignment is accepted, every value it reads from a field lies in that field's valid region (interior plus valid ghosts plus boundary extra cells) and every value it writes lies in the destination's window, for any expression built from fields, masks, stencils, shifts and conditionals.", "quantifier": "all expressions, all fields with consistent geometry", "why_tests_cant": "Ghost bookkeeping must be right for every nesting of stencils.", "anchors": ["spatialops/NeboBasic.h: calculate_valid_ghost, resize_ghost, shift_window", "spatialops/NeboStencils.h: possible_ghosts", "spatialops/NeboLhs.h", "spatialops/NeboRhs.h"]}
{"id": "C22", "title": "Nebo assignment computes the pointwise meaning of the expression", "statement": "After lhs <<= rhs, every cell of the assigned region of lhs holds the value of the expression at that cell (fields read at the same interior coordinate, stencil terms at the shifted coordinate), and every other memory cell is unchanged.", "quantifier": "all expressions, fields, memory contents without a shifted alias of the destination", "why_tests_cant": "Windows with different strides/offsets are walked in lockstep; must hold for all shapes.", "anchors": ["spatialops/NeboAssignment.h: operator<<=", "spatialops/NeboLhs.h: sequential_assign", "spatialops/NeboRhs.h"]}
{"id": "C23", "title": "Thread-parallel assignment equals sequential assignment under every schedule", "statement": "For every partition count and every interleaving of the worker tasks, the thread-parallel assignment leaves memory exactly as the sequential one does.", "quantifier": "all partition counts, all schedules, all expressions not reading the destination at other cells", "why_tests_cant": "All interleavings cannot be tested.", "anchors": ["spatialops/NeboLhs.h: thread_parallel_assign, resize", "spatialops/NeboBasic.h: nebo_find_partition, nebo_next_partition"]}
{"id": "C24", "title": "GPU launch covers each cell exactly once", "statement": "With 16x16 thread blocks and the computed grid, the valid threads together write each cell of the destination window exactly once, reading and writing the same addresses as the sequential walk.", "quantifier": "all extents and strides, all execution orders of threads", "why_tests_cant": "All extents including non-multiples of the block size.", "anchors": ["spatialops/NeboLhs.h: gpu_assign, gpu_assign_kernel", "spatialops/NeboRhs.h: NeboConstField GPUWalk"]}
{"id": "C25", "title": "Partition enumeration", "statement": "For every requested thread count the chosen split is legal for the extents, has exactly that many parts or one, and stepping through partitions visits each location of the split exactly once.", "quantifier": "all extents and thread counts", "why_tests_cant": "All combinations.", "anchors": ["spatialops/NeboBasic.h: nebo_find_partition, nebo_partition_count, nebo_next_partition"]}
{"id": "C26", "title": "cond picks the first true clause in source order", "statement": "A conditional expression evaluates to the value of the first clause (in the order written) whose condition holds at the cell, and to the final value if none does.", "quantifier": "all clause lists and truth assignments", "why_tests_cant": "Builder stores clauses reversed; any number of clauses.", "anchors": ["spatialops/NeboCond.h: NeboCond, NeboClause, CondBuilder"]}
{"id": "C27", "title": "Reductions combine every valid cell exactly once", "statement": "nebo_sum, nebo_max, nebo_min, nebo_fold and nebo_reduce return the fold of the expression's values over all cells of its valid region in fortran order: max is an upper bound that is attained, min a lower bound that is attained.", "quantifier": "all expressions and contents", "why_tests_cant": "Termination condition is an OR over operands; all shapes.", "anchors": ["spatialops/NeboReductions.h", "spatialops/NeboOperators.h: Reduction at_end"]}
{"id": "C28", "title": "Interior reductions cover the interior", "statement": "The _interior reductions combine exactly the cells of the interior window (the cells interior iterators visit and interior_assign writes).", "quantifier": "all fields including those with boundary extra cells", "why_tests_cant": "Depends on the boundary extra bookkeeping.", "anchors": ["spatialops/NeboReductions.h: nebo_fold_interior", "spatialops/NeboRhs.h: NeboConstField::reduce_init"]}
{"id": "C29", "title": "Finite-volume operators are exact on affine fields", "statement": "For every operator registered by build_stencils, applying it to samples of an affine function at the source-field coordinates gives at each destination point exactly the function (interpolants, filters) or its derivative (gradient, divergence) at the destination coordinate.", "quantifier": "all registered operators, affine functions, grid spacings, points", "why_tests_cant": "Consistency between stencil offsets, coefficients and staggered coordinates for all functions and points.", "anchors": ["spatialops/structured/stencil/StencilBuilder.cpp: build_stencils", "spatialops/structured/stencil/FVStaggeredOperatorTypes.h", "spatialops/NeboStencilBuilder.h: Stencil2Collection, Stencil4Collection, FDStencilCollection", "spatialops/structured/Grid.cpp: set_coord", "spatialops/structured/FVStaggeredLocationTypes.h"]}
{"id": "C30", "title": "Operator database returns what was registered", "statement": "register_new_operator returns a fresh id per type; retrieve_operator with that id returns that operator whatever was registered before or after for any type; without an id it succeeds exactly when one operator of the type is registered; empty_database forgets everything.", "quantifier": "all registration histories over any set of types", "why_tests_cant": "All histories.", "anchors": ["spatialops/OperatorDatabase.h"]}
{"id": "C31", "title": "build_stencils registers each operator type once", "statement": "After build_stencils on an empty database every operator type it registers can be retrieved without an identifier; after calling it twice none can.", "quantifier": "all operator types registered, all grid sizes", "why_tests_cant": "Needs distinctness over the whole type table and database semantics.", "anchors": ["spatialops/structured/stencil/StencilBuilder.cpp: build_stencils", "spatialops/OperatorDatabase.h"]}
{"id": "C32", "title": "Boundary conditions hold after they are imposed", "statement": "After BoundaryConditionOp (or the Nebo boundary condition builder) is applied with a nonzero ghost coefficient, evaluating the operator at the boundary point gives the prescribed value, and only the ghost cells of listed points changed.", "quantifier": "all points, coefficients, fields, sides", "why_tests_cant": "Algebra and index mapping for all fields and windows.", "anchors": ["spatialops/structured/stencil/FVStaggeredBCOp.h: BoundaryConditionOp", "spatialops/NeboStencilBuilder.h: NeboBoundaryConditionBuilder"]}
{"id": "C33", "title": "Point and list forms of a boundary condition agree", "statement": "Applying BoundaryConditionOp built from a list of points is the same as applying the single-point operators in order, for every side.", "quantifier": "all windows, points and sides", "why_tests_cant": "Index conversions differ between the two forms.", "anchors": ["spatialops/structured/stencil/FVStaggeredBCOp.h"]}
{"id": "C34", "title": "Thread pool runs each task exactly once, in FIFO order of start", "statement": "Under every schedule, every task handed to the FIFO pool is started at most once, tasks are started in the order scheduled, and no task disappears: each is pending, running or finished (until clear).", "quantifier": "all interleavings of schedulers and workers, spurious wake-ups included", "why_tests_cant": "Interleavings.", "anchors": ["spatialops/threadpool/threadpool/detail/pool_core.hpp: schedule, execute_task", "spatialops/threadpool/threadpool/scheduling_policies.hpp"]}
{"id": "C35", "title": "Thread pool does not lose wake-ups", "statement": "With at least one worker, an active cap of at least one and no shrinking, there is never a pending task while all workers are asleep with no wake-up pending; some worker step is always enabled and reaches the task.", "quantifier": "all interleavings", "why_tests_cant": "Deadlock only shows under particular interleavings.", "anchors": ["spatialops/threadpool/threadpool/detail/pool_core.hpp: execute_task, schedule, resize, resize_active"]}
{"id": "C36", "title": "wait() returns only when all earlier tasks have finished", "statement": "When pool wait(0) returns, no task is pending or running; the active-worker counter never undercounts the running tasks, and never exceeds the worker count.", "quantifier": "all interleavings", "why_tests_cant": "Interleavings.", "anchors": ["spatialops/threadpool/threadpool/detail/pool_core.hpp: wait, execute_task, worker_destructed"]}
{"id": "C37", "title": "Resizing the pool leaves the requested number of workers", "statement": "After set_hard_thread_count(n) settles, the pool has n workers, and never fewer than the requested target on the way down; a task that throws costs no worker: its worker is replaced, and the number of workers asked for stays what it was.", "quantifier": "all interleavings of resize with worker loops", "why_tests_cant": "Race between the termination test and the counter update.", "anchors": ["spatialops/threadpool/threadpool/detail/pool_core.hpp: resize, execute_task, worker_destructed", "spatialops/ThreadPool.cpp"]}
{"id": "C38", "title": "The assigning thread continues only after every partition is done", "statement": "thread_parallel_assign returns only after all scheduled partition tasks have completed their writes and posted, and if they all post, it does return.", "quantifier": "all interleavings of posts and waits", "why_tests_cant": "Interleavings, spurious wake-ups.", "anchors": ["spatialops/Semaphore.h", "spatialops/NeboLhs.h: thread_parallel_assign"]}
{"id": "C39", "title": "At most the configured number of tasks run at the same time", "statement": "A task is started only while the number of tasks being executed, this one included, is within the current limit on active workers. So with a limit that is never lowered at most that many tasks run at the same time, and after the limit is lowered the tasks beyond it only drain: no step makes their number grow while it exceeds the limit.", "quantifier": "all interleavings", "why_tests_cant": "Interleavings.", "anchors": ["spatialops/threadpool/threadpool/detail/pool_core.hpp: execute_task, resize_active"]}
{"id": "C40", "title": "Thread-count registry reports the pool size", "statement": "The counts reported by the thread-pool wrappers equal the effective sizes: values below one are clamped to one, duplicate registration is refused, and resizing an unknown pool is reported.", "quantifier": "all histories of insert, resize, resize_active, remove", "why_tests_cant": "Histories.", "anchors": ["spatialops/ThreadPool.cpp: ThreadPoolResourceManager"]}
{"id": "C41", "title": "Lagrange interpolation is exact on polynomials up to its order", "statement": "For strictly increasing abscissae with at least order+1 points, and any x (inside or outside the table), the interpolant uses order+1 consecutive table points and reproduces every polynomial of degree <= order exactly; the points are centred on x as far as the table allows; it reproduces the table at the nodes.", "quantifier": "all tables, orders >= 1, evaluation points, polynomials", "why_tests_cant": "Stencil selection near both ends, odd/even orders, extrapolation.", "anchors": ["spatialops/structured/onedim/LagrangePoly.cpp: get_bounds, LagrangeCoefficients::get_interp_coefs_indices, LagrangeInterpolant::value"]}
{"id": "C42", "title": "Lagrange derivative is exact on polynomials up to its order", "statement": "Same selection; the derivative coefficients give exactly the derivative of every polynomial of degree <= order at every x.", "quantifier": "all tables, orders >= 1, evaluation points, polynomials", "why_tests_cant": "As above.", "anchors": ["spatialops/structured/onedim/LagrangePoly.cpp: get_derivative_coefs_indices, LagrangeDerivative::value"]}
{"id": "C43", "title": "Particle operators conserve and interpolate consistently", "statement": "Depositing particles on cells adds exactly each particle's value in total (when the particle lies inside the mesh), with weights equal to the overlap fraction of particle and cell; interpolating a constant cell field to particles returns the constant.", "quantifier": "all particle positions, sizes, values and uniform meshes", "why_tests_cant": "Continuous positions, any particle count.", "anchors": ["spatialops/particles/ParticleOperators.h"]}
{"id": "C44", "title": "Point operators round trip", "statement": "Extracting points from a field and putting them back leaves the field unchanged; putting point data in and extracting it returns the data; other field values are untouched; index lists built from a marker field address exactly the marked cells.", "quantifier": "all fields, index lists and data", "why_tests_cant": "All lists/windows.", "anchors": ["spatialops/pointfield/PointOperators.h"]}
{"id": "C45", "title": "Field comparison semantics", "statement": "field_equal with zero tolerance is true exactly when all cells are equal; with absolute tolerance exactly when all differences are within tolerance; comparisons are reflexive, absolute comparison is symmetric, the not-equal forms are the negations, and windows that differ are rejected.", "quantifier": "all fields of numbers (for the exact and reflexive forms also infinities; what NaN does is stated separately), tolerances of either sign for the forms without a default offset", "why_tests_cant": "All contents.", "anchors": ["spatialops/structured/FieldComparisons.h"]}
{"id": "C46", "title": "Grid coordinates", "statement": "set_coord gives each cell, including ghosts, the coordinate of its physical location: consecutive points differ by the spacing, staggered fields sit half a spacing below cell centres, and the first interior cell centre is half a spacing from the origin, in every direction and for every ghost count.", "quantifier": "all grids, ghost counts, field types, directions", "why_tests_cant": "All shapes.", "anchors": ["spatialops/structured/Grid.cpp: Grid::set_coord"]}
{"id": "C47", "title": "Analytic field functions report their own derivatives", "statement": "dx and d2x of LinearFunction1D, SinFunction and GaussianFunction equal the first and second derivative of evaluate at every point.", "quantifier": "all parameters and coordinates", "why_tests_cant": "Real analysis over all parameters.", "anchors": ["spatialops/FieldFunctions.h"]}
{"id": "C48", "title": "Stencil coefficients are bounds-checked", "statement": "get_coef(i) of a coefficient collection of length N returns the i-th coefficient for 0<=i<N and throws otherwise.", "quantifier": "all lengths, contents, indices", "why_tests_cant": "All lengths (recursive template).", "anchors": ["spatialops/NeboStencils.h: NeboStencilCoefCollection::get_coef"]}
{"id": "C49", "title": "Futures deliver their value once", "statement": "A future becomes ready at most once and keeps its value; wait returns when it is ready; a cancelled future never delivers a value.", "quantifier": "all interleavings of set_value, cancel, wait", "why_tests_cant": "Interleavings.", "anchors": ["spatialops/threadpool/threadpool/detail/future.hpp"]}
{"id": "C50", "title": "Staggered field-type algebra", "statement": "The compile-time index-triplet operations are componentwise; every registered stencil offset shifts by at most one cell per direction, and an operator and its reverse (source and destination swapped) have negated offsets.", "quantifier": "all index triplets / all operator types", "why_tests_cant": "Template metaprogramming over all triples.", "anchors": ["spatialops/structured/IndexTriplet.h", "spatialops/NeboStencilBuilder.h"]}
{"id": "C51", "title": "A windowed view stays inside its parent", "statement": "Building a view of a field on another window of the same memory block succeeds only for windows inside the block; the view keeps the parent's interior and refuses interior iteration exactly when the view cuts into the interior (or the parent already refused).", "quantifier": "all windows and parents", "why_tests_cant": "All window/parent combinations.", "anchors": ["spatialops/structured/SpatialField.h: SpatialField(window,other), reshape"]}
{"id": "C52", "title": "Single-value fields have one value", "statement": "A SingleValueField can only be built with one cell per direction and no ghosts.", "quantifier": "all windows and ghosts", "why_tests_cant": "All windows and ghosts.", "anchors": ["spatialops/structured/SpatialField.h: SingleValueCheck"]}
{"id": "C53", "title": "Initial contents of a field", "statement": "A field that allocates its own memory starts with zero in every cell of its window, or with the k-th given value in the k-th cell in fortran order; no other memory is written.", "quantifier": "all windows, all value arrays", "why_tests_cant": "All windows including sub-windows of larger blocks.", "anchors": ["spatialops/structured/SpatialField.h: SpatialField, reset_values"]}
{"id": "C54", "title": "Every Nebo operator means its scalar namesake", "statement": "For every operator and function overload Nebo offers (arithmetic, comparison, logic, pow, max, min and the one-argument functions), the value of the expression at a cell is the same-named scalar operation applied to the operand values at that cell, in the order in which they are written, whether an operand is a number, field, single-value field, mask or expression and whether it is evaluated sequentially, by threads, on a GPU or in a reduction. Exactly the documented operand combinations are offered, each by one overload.", "quantifier": "all operators, all operand kinds, all evaluation routes, all field contents", "why_tests_cant": "Hundreds of generated overloads and four evaluation routes, for all operand values.", "anchors": ["spatialops/NeboOperators.h: SumOp ... NotOp, operator+ ... erfc"]}
{"id": "C55", "title": "One pool serves CPU and GPU memory without mixing them", "statement": "In a CUDA build, as long as each block is given back with the memory type it was requested for, every request is answered with a block of the requested memory type, at least as large as asked for and held by nobody else of either type; blocks given back are reused only for their own type, and at program end each unused block is released once in the way it was obtained.", "quantifier": "all histories of requests and returns of both memory types", "why_tests_cant": "All histories; sizes, reuse order and failures of pinned allocation interact.", "anchors": ["spatialops/structured/MemoryPool.cpp: Pool::get, put, ~Pool", "spatialops/structured/MemoryPool.h"]}
{"id": "C56", "title": "Mask memory is owned by exactly one mask", "statement": "In any history of building, copying, sharing with devices, un-sharing and destroying masks, every block of memory a mask obtained has exactly one owner, which still exists; it is given back exactly once, by its owner and with the memory type it was obtained for; copies own nothing; when no mask is left all memory has been given back.", "quantifier": "all histories of mask operations, with or without CUDA", "why_tests_cant": "All histories; copies and their originals may be destroyed and shared in any order.", "anchors": ["spatialops/structured/BitField.h: BitField constructors, ~BitField, add_consumer, remove_consumers", "spatialops/structured/SpatialMask.h"]}
{"id": "C57", "title": "A mask shows the same points on every device", "statement": "After a mask was made available on a device, the words found there test true exactly at the points the mask was built with, whatever happens to other masks, as long as the memory it refers to is still held. find_consumer, when it answers, tells whether the mask is available on the device.", "quantifier": "all histories of mask operations, all points of the mask region, all devices", "why_tests_cant": "All histories; stale copies and recycled memory only show in particular orders.", "anchors": ["spatialops/structured/BitField.h: add_consumer, remove_consumers, mask_values, operator()"]}
{"id": "C58", "title": "Reference-counted GPU memory is freed once, with its last pointer", "statement": "GPU memory obtained through a shared GPU pointer, or handed to one, stays allocated as long as some shared pointer in scope points to it and is freed exactly once, on its own device, when the last one is assigned, detached or goes out of scope; the reported reference count is the number of pointers sharing it, the reported device the one the memory is on; memory no shared pointer holds is left alone.", "quantifier": "all histories of creating, copying, assigning, detaching and destroying shared pointers, raw allocation and release and changes of the current device", "why_tests_cant": "All histories; sharing, order of destruction and the current device interact.", "anchors": ["spatialops/structured/CudaMemoryAllocator.cu: CUDASharedPointer, CUDADeviceInterface::get_shared_pointer, get_raw_pointer, release, CudaFree, CudaMalloc, CudaSetDevice", "spatialops/structured/ExternalAllocators.h: CUDASharedPointer"]}
{"id": "C59", "title": "A field shows the same values on every device it is available on", "statement": "As long as the client does not release memory another field still refers to and does not change a field while another field in the same memory is available elsewhere, a field shows the same values wherever it is available: after a successful add_consumer(type,device) the field is available there with exactly the values it had, no operation changes the values of a field other than a write or assignment to a field in the same memory, and nothing is undefined behaviour. Without that discipline the code lets copies of a field break this.", "quantifier": "all histories of construction, copies, views, consumers, destruction, writes and assignments, on any number of devices", "why_tests_cant": "All histories and sharing patterns; device memory is not available in unit tests.", "anchors": ["spatialops/structured/SpatialField.h: add_consumer, remove_consumers, field_values, operator(), copy constructor, destructor", "spatialops/structured/CudaMemoryAllocator.cu: memcpy_to, memcpy_from, memcpy_peer"]}
{"id": "C60", "title": "Assignment copies the whole field between any two devices", "statement": "f = g is refused with an exception and no effect exactly if f is read-only or the windows differ; otherwise f has afterwards the values of g, on whichever devices the two fields live, and no other memory changes.", "quantifier": "all histories leading to the assignment, all pairs of existing fields, all sizes", "why_tests_cant": "All histories, sizes and combinations of devices.", "anchors": ["spatialops/structured/SpatialField.h: operator=(const SpatialField&)", "spatialops/structured/CudaMemoryAllocator.cu: memcpy_to, memcpy_from, memcpy_peer"]}
{"id": "C61", "title": "A new field has the values it was given, on the CPU and on a device alike", "statement": "A field built with its own memory gets memory no existing field uses; its cells have the values of the array passed in, in the order of iteration, or zero, wherever the field lives. For windows that are a part of their block the code does this on the CPU only: on a device the array is taken in memory order.", "quantifier": "all histories, windows and arrays", "why_tests_cant": "All histories and window shapes.", "anchors": ["spatialops/structured/SpatialField.h: constructor, reset_values"]}
{"id": "C62", "title": "Shutting a thread pool down loses no task and leaves no thread", "statement": "With wait_for_all_tasks (the policy of all pool types): when the shutdown started by destroying the pool returns, every task handed over before has been executed (or thrown, or been discarded by a client), no worker thread is left, and no task runs afterwards. wait_for_active_tasks discards exactly the pending tasks and waits for the ones begun; immediately discards the pending tasks and cuts none short. The shutdown returns, if the pool has had at least one thread and was never made smaller. Tasks handed over by other threads during or after the shutdown are accepted; the code may lose them.", "quantifier": "all interleavings of workers, other threads and the thread shutting down; all numbers of workers and tasks; tasks that throw; spurious wake-ups", "why_tests_cant": "All interleavings.", "anchors": ["spatialops/threadpool/threadpool/shutdown_policies.hpp: wait_for_all_tasks, wait_for_active_tasks, immediately", "spatialops/threadpool/threadpool/pool.hpp: thread_pool", "spatialops/threadpool/threadpool/detail/pool_core.hpp: shutdown, terminate_all_workers"]}
{"id": "C63", "title": "Waiting with a time limit", "statement": "wait(timestamp, threshold) returns true only at a moment at which at most threshold tasks are pending or being executed (with 0: everything handed over is done); it returns false only after its time is up; it is never held up beyond its time, whatever the workers do; and it does not disturb the pool. The converse of the documentation, that false means the threshold is not reached, does not hold.", "quantifier": "all interleavings of workers, clients, any number of timed calls and the clock", "why_tests_cant": "All interleavings and all moments at which the time may run out.", "anchors": ["spatialops/threadpool/threadpool/detail/pool_core.hpp: wait(xtime const&, size_t)", "spatialops/threadpool/threadpool/pool.hpp: wait(xtime const&, size_t)"]}
{"id": "C64", "title": "Discrete conservation", "statement": "After div.apply_to_field(flux,dest) with a divergence (or gradient) operator, every interior value of the destination is the difference of the two flux values half a cell after and before it over the spacing; so over any block of interior cells the sum of the destination times the spacing is the flux through the far faces minus the flux through the near faces, and nebo_sum_interior of the destination is the flux through the domain boundary. Nothing is created inside.", "quantifier": "all registered divergence and gradient operators, meshes, spacings, fluxes and blocks of interior cells", "why_tests_cant": "All sizes, values and blocks; the code has no notion of the sum.", "anchors": ["spatialops/structured/stencil/FVStaggeredOperatorTypes.h: OperatorTypeBuilder", "spatialops/structured/stencil/StencilBuilder.cpp: build_stencils", "spatialops/NeboStencilBuilder.h: apply_to_field", "spatialops/NeboReductions.h: nebo_sum_interior"]}
{"id": "C65", "title": "Summation by parts", "statement": "Divergence and gradient of a volume type and its faces are negative adjoints: over a block of cells, the sum of phi times div F plus the sum over the inner faces of F times grad phi, times the spacing, is the boundary term phi F at the far faces minus that at the near ones; without flux through the ends the two sums are opposite.", "quantifier": "all four volume types, three directions, meshes, spacings, field contents and blocks of interior cells", "why_tests_cant": "All sizes and values; it relates two operators that are registered independently.", "anchors": ["spatialops/structured/stencil/FVStaggeredOperatorTypes.h: OperatorTypeBuilder", "spatialops/structured/stencil/StencilBuilder.cpp: build_stencils", "spatialops/NeboStencilBuilder.h: apply_to_field"]}
{"id": "C66", "title": "Interpolants and filters create no new extrema", "statement": "Every value written by an interpolant, directional interpolant or filter lies between any lower and upper bound of the source values it reads.", "quantifier": "all registered interpolants and filters, meshes and field contents, over any ordered field", "why_tests_cant": "All values and all registrations.", "anchors": ["spatialops/structured/stencil/StencilBuilder.cpp: build_stencils", "spatialops/structured/stencil/FVStaggeredOperatorTypes.h: OperatorTypeBuilder", "spatialops/NeboStencilBuilder.h: apply_to_field"]}
{"id": "C67", "title": "Operators are linear", "statement": "If one source field is the combination alpha u + beta v of two others where the operator reads, the result of the operator on it is the same combination of the results on u and v.", "quantifier": "all registered operators, meshes, field contents and coefficients", "why_tests_cant": "All values and all registrations.", "anchors": ["spatialops/structured/stencil/StencilBuilder.cpp: build_stencils", "spatialops/NeboStencilBuilder.h: apply_to_field"]}
{"id": "C68", "title": "Scratch fields may be obtained and released by several threads", "statement": "If several threads obtain scratch fields from the store and release them (build with threads), then under every schedule: at most one thread at a time works on the memory pool, no two fields that are in use share memory, each has at least the memory asked for, the results are those of the same calls made one after the other, the accounting is right whenever no call is in progress, no assertion fails, there is no deadlock and calls finish. This does not extend to threads that at the same time construct or destroy ordinary fields or add consumers: these use the pool under no or another lock and may be given the same memory.", "quantifier": "any number of threads, all interleavings of single statements, all request sizes and histories of requests and releases, all choices of addresses by new", "why_tests_cant": "All schedules; a race shows only under rare timing.", "anchors": ["spatialops/structured/SpatialFieldStore.h: get_from_window, restore_field, get_mutex", "spatialops/structured/MemoryPool.cpp: Pool::get, Pool::put", "spatialops/structured/SpatialField.h: SpatialField, add_consumer, ExecMutex"]}
{"id": "C69", "title": "Field pointers and several threads", "statement": "Threads may copy, assign and destroy field pointers (SpatFldPtr) at the same time as long as pointers to the same field are not worked on at the same time: then under every schedule no field is released while a pointer to it is alive, and every field without pointers has been released exactly once. Pointers to the same field must not be worked on at the same time, even if each thread only uses its own pointer variable: two copies made at once can release the field while it is in use, and two pointers destroyed at once can leave it unreleased or release it twice.", "quantifier": "any number of threads, fields and pointers, all interleavings of the single accesses to the reference count", "why_tests_cant": "All schedules; a lost update of a reference count shows only under rare timing.", "anchors": ["spatialops/structured/SpatialFieldStore.h: SpatFldPtr, operator=, detach, restore_field"]}
{"id": "C70", "title": "Composed expressions equal stepwise assignment through intermediate fields", "statement": "Writing the results of operators into intermediate fields and using these in later expressions gives, at every interior cell of the final field and at its ghost cells where both are defined, the values that the single composed expression gives, for any number of intermediate fields. (Violated when the composed expression has no value at some interior cell: it is refused, but the stepwise version is accepted and uses whatever the intermediate field held in ghost cells that were never computed, because an assignment does not record which ghost cells it could compute.)", "quantifier": "all sequences of assignments, all expressions (stencils, conditionals, masks, operators), all fields on a mesh, all previous contents of memory", "why_tests_cant": "Any number of statements and any expressions; stale ghost values often look plausible in a test.", "anchors": ["spatialops/NeboAssignment.h: operator<<=", "spatialops/NeboLhs.h: NeboField<Initial>, sequential_assign, init", "spatialops/NeboStencils.h: NeboStencil, NeboSumStencil", "spatialops/structured/SpatialField.h: reset_valid_ghosts, get_valid_ghost_data"]}
{"id": "C71", "title": "Index arithmetic is exact in machine integers up to 2^31-1 cells, and not beyond", "statement": "For every block with at most 2^31-1 cells, cell counts, the conversions between triples and flat positions, window positions, window splitting, and every movement and dereference of field and mask iterators that stays between begin and end give the mathematically exact result without signed overflow or wrap-around. The limit is sharp: from 2^31 cells on, counting the cells (and so constructing a field or mask) overflows. Mask iterators also need the position at which they end to be below 2^31.", "quantifier": "all windows, all cells and flat positions, all split patterns, all iterator histories", "why_tests_cant": "The critical sizes need gigabytes, and every intermediate value of every expression is involved.", "anchors": ["spatialops/structured/IntVec.h: ijk_to_flat, flat_to_ijk", "spatialops/structured/MemoryWindow.h: flat_index, glob_npts, local_npts, FieldIterator, ConstFieldIterator", "spatialops/structured/MemoryWindow.cpp: refine, sanity_check", "spatialops/structured/BitField.h: ConstMaskIterator, NEBO_ROUND_TO_INT", "spatialops/structured/SpatialField.h: end, interior_end"]}
{"id": "C72", "title": "One- and two-dimensional problems: assignment on meshes with a single cell in some direction", "statement": "On a mesh with one interior cell in some directions, the public constructors (a window from get_window_with_ghost, then the field) give fields one layer of cells there, whatever the ghost counts, with all interior, boundary and ghost cells in the other directions. For fields so built with the same ghost counts in those directions, lhs <<= e is accepted whenever e has a value at every interior cell and its stencils do not lead across such a direction; it stores at every interior and ghost cell where e has a value exactly that value and changes nothing else. A stencil or registered operator that leads across a single-cell direction is refused by an exception or assertion, storing nothing. The full claim also asks that interior_assign works there and that fields with different ghost counts can be combined as on other meshes; both fail.", "quantifier": "all meshes with at least one cell per direction and any set of single-cell directions, all ghost counts, boundary flags, expressions, stencils, registered operators and memories", "why_tests_cant": "tests use a few mesh shapes and ghost counts; which region is assigned depends on the arithmetic of window extents and ghost counts, which do not agree in single-cell directions", "anchors": ["spatialops/structured/FVTools.h: get_window_with_ghost, get_dim_with_ghost", "spatialops/structured/SpatialField.h: SpatialField, reset_valid_ghosts, reshape", "spatialops/NeboBasic.h: calculate_valid_ghost, resize_ghost_and_shift_window", "spatialops/NeboAssignment.h: operator <<=, interior_assign", "spatialops/NeboStencilBuilder.h: apply_to_field"]}
{"id": "C73", "title": "The heat equation example computes the finite-volume right-hand side", "statement": "The heat equation program shipped with the library, built from its fields, work arrays, registered interpolants, gradients and divergences, coordinates and pointwise expressions, ends without error on every one-, two- or three-dimensional mesh and leaves at every cell the finite-volume form of div(k grad T)/(rho cp), after any positive number of time steps; temperature, conductivity and rho cp are not changed by the loop. Consequently the energy summed over the mesh changes only by the flux through its boundary, a uniform temperature stays uniform, and a cell that is hottest (coldest) among its neighbours does not get hotter (colder) if conductivities are not negative.", "quantifier": "all mesh sizes (including single-cell directions), lengths, spacings, contents of the fields, numbers of time steps, and memory blocks handed out for fields and work arrays", "why_tests_cant": "The test program prints timings and checks nothing; the claim is about every cell of every mesh and every content of the fields.", "anchors": ["test/heatEqn/main.cpp: main", "test/heatEqn/tools.h: calculate_flux, calculate_rhs", "spatialops/structured/SpatialFieldStore.h: SpatialFieldStore::get", "spatialops/structured/Grid.cpp: set_coord", "spatialops/structured/stencil/FVStaggeredOperatorTypes.h: BasicOpTypes", "spatialops/structured/stencil/StencilBuilder.cpp: build_stencils"]}
{"id": "C74", "title": "Fork and join: a program that hands batches of jobs to the pool and waits gets the sequential result", "statement": "A program schedules a batch of jobs that read and write shared memory, calls wait(), schedules the next batch, and so on. If no job writes a cell that another job of its batch reads or writes, then whenever wait() has returned the memory is exactly what running the jobs so far one after another makes of it, under every schedule, scheduling policy and number of threads; and if the jobs return when run one after another, then on a pool created with at least one thread the program ends. Consequently the merge sort of the thread pool examples, on such a pool, ends with the array sorted, a permutation of its initial content, equal elements in their original order, and every merge is called on sorted halves. (As shipped the example creates its pool without threads and resizes it afterwards; then no job is ever started and the first wait() never returns.)", "quantifier": "all programs of batches of jobs, all interleavings of single memory accesses, all pool sizes and numbers of threads granted, all spurious wake-ups; for the merge sort all array sizes 2^n, contents, orders and implementations of inplace_merge", "why_tests_cant": "Interleavings of any number of jobs and any number of batches; the example has no test.", "anchors": ["spatialops/threadpool/example/mergesort/mergesort.cpp: main, merge_job", "spatialops/threadpool/threadpool/detail/pool_core.hpp: schedule, wait, execute_task", "spatialops/threadpool/threadpool/pool.hpp: thread_pool", "spatialops/threadpool/threadpool/size_policies.hpp: resize_controller"]}
{"id": "C75", "title": "Several threads may perform thread-parallel assignments at the same time", "statement": "Several threads each perform a sequence of thread-parallel assignments, all of them on the one pool. If no thread writes a field that another one reads or writes, then under every schedule: whenever a thread has returned from an assignment, all memory but what the others write is as if it had performed its assignments so far alone and without threads; when all are through, memory is what one thread makes that performs all assignments one caller after the other; no two workers are ever about to access the same element unless both read; the semaphore each call keeps among its local variables is never used after the call has returned nor destroyed while it is locked; no wake-up is lost and every thread returns from its last assignment after a bounded number of steps. An assignment must not be performed from a task of that same pool: once every worker executes such a task none of them ever returns.", "quantifier": "any number of threads and assignments, all expressions and partitions, all interleavings of single memory accesses and of the steps of locking, waking and unlocking, all pool sizes and numbers of threads granted, all spurious wake-ups", "why_tests_cant": "All schedules; a lost wake-up, a semaphore used after its call has returned or a race shows only under rare timing.", "anchors": ["spatialops/NeboLhs.h: thread_parallel_assign, assign", "spatialops/Semaphore.h: Semaphore::post, Semaphore::wait", "spatialops/ThreadPool.h: ThreadPoolFIFO", "spatialops/threadpool/threadpool/detail/pool_core.hpp: schedule, execute_task"]}
{"id": "C76", "title": "Loops written with field iterators do what the corresponding assignment or operator does", "statement": "A loop that advances an iterator of a destination together with iterators of sources and stores a function of the values read pairs the cells by their number in each window. If all windows (or all interiors) have the same extents, each cell gets the function of the cells at the same place and nothing else changes; the loop leaves the very memory that <<= (or interior_assign) leaves for the same function. If a source has fewer cells the loop throws; different shapes with enough cells go unnoticed. The reference stencils, which are such loops over parts of the fields, compute in the interior what every registered operator computes: two-point, four-point, finite-difference, null and box filter.", "quantifier": "all functions, destinations and lists of sources, window shapes and contents; for the reference stencils all registered operators, mesh sizes of at least two cells in each direction, ghost counts of at least one, boundary flags, mesh spacings and contents", "why_tests_cant": "All shapes, sizes, ghosts and boundary flags; the tests of the library compare operators and references on a few sizes only.", "anchors": ["spatialops/structured/stencil/test/ReferenceStencil.h: ref_stencil2_apply_to_field, ref_stencil4_apply_to_field, ref_fd_stencil2_apply_to_field, ref_null_stencil_apply_to_field, ref_box_filter_stencil_apply_to_field", "spatialops/structured/MemoryWindow.h: FieldIterator, ConstFieldIterator", "spatialops/structured/SpatialField.h: begin, end, interior_begin, interior_end, SpatialField(window,other)"]}
{"id": "C77", "title": "Floating point results are within stated bounds of the exact ones, and some things hold exactly in spite of rounding", "statement": "With every +, -, *, / and conversion rounded with relative error at most u (2^-53 for double): each value stored by <<= or interior_assign of an arithmetic formula differs from the exact value by at most ((1+u)^depth - 1) times the formula with all terms taken positive; nebo_sum and nebo_sum_interior of N cells likewise with N - 1 further roundings; nebo_norm lies within a factor of the exact norm; every registered operator differs from itself in exact arithmetic by at most ((1+u)^(k+1) - 1) times the sum of its absolute coefficients times the largest of the k values read; the divergence theorem and conservation hold up to such a bound. Exactly: gradients and divergences of equal values are zero; with rounding to nearest even interpolants create no new extrema and reproduce constants. The box filters do not reproduce constants.", "quantifier": "all formulas, fields, contents, mesh sizes and spacings, all registered operators, all roundings with relative error u (for bounds of interpolants: rounding to nearest even with any number of binary digits from two on)", "why_tests_cant": "The set of inputs is every assignment of numbers to the cells; tests compare a few fields with a tolerance chosen by hand.", "anchors": ["spatialops/structured/SpatialField.h: SpatialField::value_type", "spatialops/NeboReductions.h: nebo_sum, nebo_norm", "spatialops/NeboStencils.h: NeboStencil, NeboSumStencil", "spatialops/structured/stencil/StencilBuilder.cpp: build_stencils", "spatialops/structured/stencil/FVStaggeredOperatorTypes.h: Filter"]}
{"id": "C78", "title": "write_matlab writes every value of the field, in order, to 15 digits", "statement": "For a field with values in CPU memory write_matlab returns and leaves in load_<prefix>.m the function head and one decimal number for each cell, in Fortran order, of all cells with includeGhost and of the interior cells without. Each number is within a relative 5e-15 of the value, and equal to it if the value has at most 15 decimal digits. The file determines the numbers, their count and their order. No other file changes. (The numbers do not determine a double; a file that cannot be opened is not reported; a field without CPU values replaces the file by its head before the exception.)", "quantifier": "all fields and windows, all contents, prefixes and previous files", "why_tests_cant": "The numbers printed are all numbers; rounding at powers of ten, negative values and exponents of either sign make many cases, and the order depends on the window.", "anchors": ["spatialops/WriteMatlab.h: write_matlab", "spatialops/structured/SpatialField.h: begin, end, interior_begin, interior_end"]}
{"id": "C79", "title": "The operators are accurate to second order, with the best constants", "statement": "For a source field that holds the values of a smooth function at its points, every registered interpolant, filter and directional interpolant gives the function at the points of the destination up to the sum over the directions of a constant times the square of the spacing times a bound on the second derivative (constants 1/8 per staggered direction, 1/3 per direction, 1/2); every gradient and divergence gives the derivative up to h^2/24 times a bound on the third derivative (directional gradients h^2/6), and the divergence of the gradient gives the second derivative up to h^2/12 times a bound on the fourth. The constants of single operators cannot be improved.", "quantifier": "all registered operators, functions, spacings, meshes and interior cells", "why_tests_cant": "A convergence test refines one mesh for one function and fits a slope; a wrong constant, direction or offset of half a cell can hide behind the function chosen.", "anchors": ["spatialops/structured/stencil/StencilBuilder.cpp: build_stencils", "spatialops/structured/stencil/FVStaggeredOperatorTypes.h: OperatorTypeBuilder", "spatialops/NeboStencilBuilder.h: apply_to_field"]}
{"id": "C80", "title": "Lagrange interpolation and differentiation have the classical error bounds", "statement": "For a table of values of a smooth function at strictly increasing points, the interpolated value of order n differs from the function by at most a bound on its (n+1)-st derivative, divided by (n+1)!, times the product of the distances of x from the n+1 consecutive points used, and the derivative by at most that bound divided by n! times the n-th power of the length of the interval spanned. Linear interpolation between neighbours is wrong by at most an eighth of the square of their distance times the bound on the second derivative.", "quantifier": "all functions, tables, orders and evaluation points, inside the table or outside", "why_tests_cant": "The error depends on the function and on the points chosen; a test compares a few values with a tolerance.", "anchors": ["spatialops/structured/onedim/LagrangePoly.cpp: LagrangeInterpolant::value, LagrangeDerivative::value, get_bounds", "spatialops/structured/onedim/LagrangePoly.h: LagrangeInterpolant, LagrangeDerivative"]}
{"id": "C81", "title": "The results of a program do not depend on threads or schedules", "statement": "A program of assignments to fields, run one after the other, any of which may be divided into any number of tasks on the thread pool while others are done by the calling thread: whatever the order in which tasks make their steps, no two tasks ever race for an element, the program never gets stuck, and it ends after a bounded number of steps. Between any two statements memory is what a single thread running the statements so far leaves, so two runs that differ in partition counts, in which statements are divided, and in scheduling end with the same values in every element.", "quantifier": "all programs of assignments whose expressions are defined on the interior, all choices of partition counts statement by statement, all schedules, all initial values", "why_tests_cant": "The number of interleavings of the tasks of several statements is unbounded, and a race shows itself only under some of them.", "anchors": ["spatialops/NeboLhs.h: cpu_assign, sequential_assign, thread_parallel_assign", "spatialops/NeboAssignment.h: operator <<=, interior_assign", "spatialops/SpatialOpsTools.h: is_thread_parallel", "spatialops/structured/SpatialField.h: set_partition_count, get_partition_count"]}
{"id": "C82", "title": "A looped task calls its function at the given interval until it returns false", "statement": "A looped task waits at least its interval before the first call of its function and between the end of a call and the next, whatever the interval in milliseconds; it calls the function until a call returns false and not again, ends just then, and never ends if no call does. A task without a function ends at once.", "quantifier": "all functions (sequences of results), all 32-bit intervals, all amounts of time that pass between steps", "why_tests_cant": "How long calls and sleeps take is up to the system, and a test of a few intervals does not meet carries from nanoseconds into seconds or the limits of unsigned arithmetic.", "anchors": ["spatialops/threadpool/threadpool/task_adaptors.hpp: looped_task_func"]}
{"id": "C83", "title": "A study of convergence on a grid is second-order accurate from beginning to end", "statement": "A program that builds fields on a grid, sets the coordinates, assigns a function of them, retrieves an operator from the database built for that grid and applies it never fails, and what it computes differs at every interior cell from the exact interpolant or derivative by at most a constant times the square of the spacing; the relative error it measures over the interior is bounded accordingly.", "quantifier": "all smooth functions written as expressions in the coordinates, all meshes with more than two cells in each direction, all lengths and boundaries, all registered interpolants, filters, gradients, divergences and directional operators", "why_tests_cant": "The test of the library halves the spacing a few times for one function of sines and cosines and looks at the slope.", "anchors": ["spatialops/structured/stencil/test/test_stencil_helper.h: apply_stencil, interior_norm", "spatialops/structured/Grid.h: set_coord", "spatialops/structured/stencil/StencilBuilder.h: build_stencils", "spatialops/OperatorDatabase.h: retrieve_operator"]}
{"id": "C84", "title": "The heat equation program computes the divergence of the heat flux to second order", "statement": "A trip of the time loop of the heat equation program leaves at each cell of the right-hand side the value of div(k grad T)/(rho cp) at the cell centre, up to an error of second order in the spacings with explicit constants; for the temperature and conductivity the program sets, the error is at most h^2((Lx+Ly+Lz)/12 + 1/6) per direction. The constant of the leading term is attained.", "quantifier": "all smooth temperatures and conductivities, all one-, two- and three-dimensional meshes, all lengths, all cells", "why_tests_cant": "A run of the program shows numbers on one mesh, and the program does not compare them with anything.", "anchors": ["test/heatEqn/main.cpp: main", "test/heatEqn/tools.h: calculate_flux, calculate_rhs", "spatialops/structured/stencil/StencilBuilder.cpp: build_stencils"]}
{"id": "C85", "title": "The total error of an operator in floating point: discretisation, data and rounding", "statement": "If a field holds, up to errors of eps, the values of a smooth function bounded by B, then what an operator computes from it in floating point differs from the function, or its derivative, by at most the sum of three terms: the discretisation error (a constant times h^2), the errors of the data (eps for interpolants and filters, 2 eps/h for gradients and divergences, eps/h for directional gradients), and the errors of rounding (the number of roundings times the unit roundoff, times B + eps, times the same amplification).", "quantifier": "all registered operators, all smooth functions, all data within eps of them, all spacings, all formats that round with a relative error of at most u", "why_tests_cant": "Refining the mesh makes one error smaller and the others larger; a test sees their sum for one function on a few meshes.", "anchors": ["spatialops/structured/stencil/StencilBuilder.cpp: build_stencils", "spatialops/structured/stencil/FVStaggeredOperatorTypes.h: BasicOpTypes", "spatialops/NeboStencilBuilder.h: apply_to_field"]}
{"id": "C86", "title": "A GPU test build assigns what other builds assign", "statement": "In a build with NEBO_GPU_TEST an assignment to a CPU field copies the operands to device 0 from wherever they live, runs there and copies the result back; afterwards the memory of every field is what the same assignment leaves in a build without CUDA.", "quantifier": "all expressions over fields on the CPU and on any device, masks, stencils and conditionals, all fields and meshes, all interleavings of the GPU threads, <<= and interior_assign", "why_tests_cant": "The mode exists to run the tests on a GPU; a test that compares interior cells does not see what happens to the rest of the memory, and no test can run all thread interleavings.", "anchors": ["spatialops/NeboLhs.h: NeboField::assign, NeboField::gpu_test_assign", "spatialops/NeboRhs.h: NeboConstField::gpu_prep", "spatialops/structured/SpatialField.h: add_consumer, reset_values"]}
{"id": "C87", "title": "Device memory statistics and allocation", "statement": "After update_memory_statistics, get_memory_statistics(cms,K) reports for every device K its size, what is allocated on it and what is free; the numbers change only at the next update, an unknown device is refused without effect, and allocation takes exactly what is asked for from the device named, or fails.", "quantifier": "all machines (number and sizes of devices), all histories of allocation, release, copying, setting and statistics calls", "why_tests_cant": "A test machine has one device, where asking the wrong one cannot be noticed; a history is needed to see that the current device decides.", "anchors": ["spatialops/structured/CudaMemoryAllocator.cu: CUDADeviceManager::update_memory_statistics, CUDADeviceManager::get_memory_statistics, CUDADeviceInterface::get_raw_pointer, CUDADeviceInterface::release", "spatialops/structured/ExternalAllocators.h: CUDAMemStats"]}
{"id": "C88", "title": "Bytes on a device", "statement": "Data copied to a block on a device come back when they are copied to the host, as long as no call names the block as destination or releases it; a copy between devices copies exactly the bytes asked for, memset stores the value modulo 256, and neither changes other bytes.", "quantifier": "all machines, all legal histories (accesses inside allocated blocks), all data, sizes and devices", "why_tests_cant": "Interference between blocks depends on the history of allocations and copies, of which a test has one.", "anchors": ["spatialops/structured/CudaMemoryAllocator.cu: CUDADeviceInterface::memcpy_to, CUDADeviceInterface::memcpy_from, CUDADeviceInterface::memcpy_peer, CUDADeviceInterface::memset"]}
{"id": "C89", "title": "The heat equation program with threads", "statement": "In a build with threads the heat equation program of test/heatEqn gives the same result whichever of its assignments are divided into whichever numbers of tasks and however these are scheduled: no two tasks race, it never gets stuck, it ends, and its result is second-order accurate.", "quantifier": "all meshes (one-, two- and three-dimensional), lengths, numbers of time steps, divisions into tasks (at least one per divided assignment) and schedules", "why_tests_cant": "Schedules cannot be enumerated by running the program, and a race shows only in some of them; on a mesh with flat directions the tasks split a different axis.", "anchors": ["test/heatEqn/main.cpp: main", "test/heatEqn/tools.h: calculate_flux, calculate_rhs", "spatialops/NeboLhs.h: NeboField::cpu_assign, NeboField::thread_parallel_assign"]}
{"id": "C90", "title": "The hand-written seven-point CUDA kernel computes the stencil under every schedule", "statement": "The kernel that applies the seven-point stencil to a field on a device, staging planes in shared memory between barriers, has no race, no access out of bounds and no thread left at a barrier; it ends, gives every cell not on the boundary the stencil of the old values with the given spacings, leaves the rest unchanged, and agrees exactly with the program on the host.", "quantifier": "all extents, values, spacings, initial contents of shared memory and interleavings of the single memory accesses of all threads of all blocks", "why_tests_cant": "A missing barrier or an overlapping tile shows only under some interleavings, which a device does not let a test choose, and reads beyond the end of an array mostly go unnoticed.", "anchors": ["spatialops/structured/test/CudaStencilLib.h: _div_float_opt2, divergence_float_gpu", "spatialops/structured/test/ExternalStencilTest.cu: stencil7_cpu, main"]}
{"id": "C91", "title": "Element-wise vector operations on a device", "statement": "Adding or multiplying two vectors on a device gives the sum or product in every element, for every length: all elements are covered by the blocks, no thread reads or writes beyond the end, no two threads touch the same element, and the kernel ends.", "quantifier": "all lengths, operands, operators, old contents of the result and interleavings of the threads", "why_tests_cant": "The last block is only partly used, differently for every length, and schedules cannot be enumerated.", "anchors": ["spatialops/structured/test/CudaVecLib.cu: _vecAdd, _vecMul, vecAdd, vecMul, func_add, func_mul"]}
{"id": "C92", "title": "A reshaped mask shows the same points", "statement": "Reshaping a mask is accepted exactly if the new window lies in the allocation and begins before its end, which is also the rule for the field the mask was made for. However often it is reshaped, traversing a view with at least one cell reads one value per cell in order, true exactly at the points given at construction; indexing a view or a copy gives the answers of the mask; two reshapes in turn are one by the sums. Unsigned indices converted from negative numbers address the ghost cells.", "quantifier": "all fields, point lists, chains of reshapes, positions and indices", "why_tests_cant": "The number of windows, point lists and chains of reshapes is unbounded, and bits are packed 32 to a word, so an error shows only for some combinations of offset and extent.", "anchors": ["spatialops/structured/SpatialMask.h: SpatialMask (all constructors), operator(), begin, end, interior_begin, interior_end, reshape", "spatialops/structured/BitField.h: BitField, ConstMaskIterator"]}
{"id": "C93", "title": "Expressions of views", "statement": "Every box of cells inside a field can be made a view. An expression of views of one size, of fields with the same ghost counts, may be assigned to such a view wherever each lies in its field: every cell of the view receives the value of the expression at the cells with the same number, including its outer layers, and nothing else changes. A kernel written by hand as one expression of shifted views therefore computes what the operators compute through intermediate fields: minus the divergence of the diffusive flux at every cell of the mesh. Views of fields with different ghost counts are accepted too, but the cells are then displaced.", "quantifier": "all fields, boxes, expressions, meshes with at least two cells per direction, contents and numbers of repetitions", "why_tests_cant": "Views may lie anywhere and expressions be of any size; the test program compares the two forms for one mesh and one set of values.", "anchors": ["spatialops/structured/SpatialField.h: SpatialField (constructor with a window), operator<<=", "spatialops/structured/MemoryWindow.h: MemoryWindow, resize_ghost", "test/StencilChainTest.cpp: build_stencil_point, evaluate_serial_example, evaluate_chaining_example, main"]}
{"id": "C94", "title": "Programs that use one thread pool", "statement": "A program that creates a pool with at least one thread, hands tasks over, grows the pool, changes its limit to a positive one, waits for tasks that do not throw and finally destroys the pool comes to its end under every schedule, and every task has then been executed once: those that throw count as failed, the others as finished. When wait() has returned and nothing else has been called, every task handed over so far has been executed. A program that creates its pool without threads and grows it by the size controller alone never comes to its end once it has handed a task over.", "quantifier": "all programs of this form, tasks, scheduling policies and interleavings of the thread of the program with the workers", "why_tests_cant": "Whether a program hangs depends on the interleaving; a test sees a few of them, and the sections of the tutorial that hang are commented as working.", "anchors": ["spatialops/threadpool/tutorial/tutorial.cpp: main", "spatialops/threadpool/quickstart/quickstart.cpp: main", "spatialops/threadpool/threadpool/pool.hpp: thread_pool", "spatialops/threadpool/threadpool/size_policies.hpp: resize_controller", "spatialops/threadpool/threadpool/detail/pool_core.hpp: schedule, wait, resize, terminate_all_workers", "spatialops/threadpool/threadpool/shutdown_policies.hpp: wait_for_all_tasks"]}
{"id": "C95", "title": "Programs that loop until a reduction says so", "statement": "In a program of assignments, if and while statements whose conditions are computed from reductions (sum, maximum, minimum, norm or any other, over all cells or the interior), the assignments can be divided into tasks on the thread pool in any way, differently each time they are reached: no two tasks ever race, the program is never stuck, it ends if and only if the program run by a single thread ends, it makes the same number of passes through every loop, every reduction has the same value bit for bit, and memory is the same at the end.", "quantifier": "all programs of this form, meshes, contents of memory, arithmetic (also not associative), numbers of parts chosen each time a statement is reached and schedules of the tasks", "why_tests_cant": "Whether a solver takes one iteration more under another schedule shows only in the schedule that does it; numbers of iterations and values are not bounded.", "anchors": ["spatialops/NeboLhs.h: cpu_assign, thread_parallel_assign", "spatialops/NeboReductions.h: nebo_reduce, nebo_reduce_interior, nebo_max, nebo_min, nebo_sum, nebo_norm", "spatialops/NeboAssignment.h: operator<<=, interior_assign"]}
{"id": "C96", "title": "The pools of the library may be used by several threads at once, from the first use on", "statement": "Threads may ask for and set the number of threads and the number of active threads of the pools of the library without preparing anything. Under every schedule the calls return, and have the effect on pools and registry, that they have when made one after the other, each thread in the order of its program; no call finds the pool unknown; the pool is created and registered once, with no warning; no thread waits for ever; and no two threads race for a variable.", "quantifier": "any number of threads and pools, any sequence of calls by each thread, all interleavings of the steps of creation, test, registration, marking and call, all actions of the workers meanwhile, all numbers of threads granted by the system", "why_tests_cant": "The order of creation, registration and use differs in rare schedules only, and only at the first use in a process.", "anchors": ["spatialops/ThreadPool.cpp: ThreadPool::self, ThreadPoolFIFO::self, ThreadPoolResourceManager::insert, resize, resize_active, get_worker_count, get_max_active_worker_count", "spatialops/SpatialOpsTools.h: is_thread_parallel, get_soft_thread_count, set_soft_thread_count, get_hard_thread_count, set_hard_thread_count"]}
{"id": "C97", "title": "Switching the debug checks off changes no result", "statement": "In a build with NDEBUG, every call that the debug build accepts gives the same result: assignments and interior assignments of expressions leave the same memory, reductions return the same value, element access yields the same element, and fields, views, scratch fields, masks, iterators, particle and point operators, tables for interpolation and the memory pool behave the same. A program that assigns the elements of a scratch field before it reads them leaves, in both builds, the same contents wherever it determines them. Where the debug build refuses an assignment because the expression has no value at some interior cell, the release build assigns the cells at which it has one and no others.", "quantifier": "all fields, windows, ghost counts, masks, expressions and memories; all programs of scratch fields and assignments; all contents of reused memory", "why_tests_cant": "Tests are built in one of the two configurations, and memory that happens to be zero hides the difference between them.", "anchors": ["spatialops/structured/IntVec.h: ijk_to_flat, flat_to_ijk", "spatialops/structured/MemoryWindow.h: flat_index, FieldIterator", "spatialops/structured/SpatialField.h: operator(), reset_valid_ghosts", "spatialops/structured/SpatialFieldStore.h: get_from_window", "spatialops/structured/SpatialMask.h: BitField", "spatialops/Nebo.h: nebo_sum", "spatialops/NeboAssignment.h: interior_assign", "spatialops/NeboLhs.h: sequential_assign", "spatialops/particles/ParticleOperators.h: apply_to_field", "spatialops/pointfield/PointOperators.h: apply_to_field", "spatialops/structured/onedim/LagrangePoly.cpp: LagrangeInterpolant", "spatialops/structured/MemoryPool.cpp: get, put"]}
{"id": "C98", "title": "Statements on GPU fields take effect in program order, whatever streams they use", "statement": "A program of assignments to GPU fields with freely chosen streams, copies between host and device, accesses by the host and waits for streams leaves the memory that its statements leave one after the other, whatever host and device do: nothing races, it ends and never gets stuck. In the debug build this holds for all choices of streams when the host waits for the copies. In any build it holds for programs that use one stream and whose host uses other memory than the jobs not waited for, and for every program in which each two statements that conflict are ordered by their streams or by a wait. Two statements that nothing orders may take effect in the reverse order.", "quantifier": "all programs, all streams (blocking and non-blocking), both builds, all fields, expressions and memories, all interleavings of the host with the memory accesses of all threads of all jobs", "why_tests_cant": "Small kernels finish before the host gets to the next statement, so a missing wait shows up only on a loaded device, and never in the debug build.", "anchors": ["spatialops/structured/SpatialField.h: set_stream, get_stream", "spatialops/NeboLhs.h: gpu_assign", "spatialops/structured/CudaMemoryAllocator.cu: CudaMemcpy, CudaMemcpyPeer"]}
{"id": "C99", "title": "The release build gives the same results on the thread pool and on GPUs", "statement": "With NDEBUG, an assignment divided among the threads of the pool or done by a GPU leaves what the debug build leaves with a single thread: if the debug build accepts the call and its runs end without a race, so do the runs of the release build, with the same memory. A program of assignments and scratch fields, each assignment done by one thread or divided into any number of parts, runs without races, ends, always with the same memory, and that is what the debug build computes with one thread wherever the program determines the contents, that is except at elements of scratch fields it has not assigned.", "quantifier": "all fields, expressions, memories and programs that assign scratch elements before reading them, all numbers of parts, all schedules of the tasks at the level of single memory accesses, all initial contents of scratch memory", "why_tests_cant": "Tests run in one build type; thread interleavings and contents of recycled memory vary from run to run.", "anchors": ["spatialops/NeboLhs.h: thread_parallel_assign, gpu_assign", "spatialops/NeboRhs.h: resize, init, gpu_init", "spatialops/NeboBasic.h: resize_ghost", "spatialops/structured/MemoryWindow.h: FieldIterator, ConstFieldIterator", "spatialops/structured/SpatialFieldStore.h: get_from_window"]}
{"id": "C100", "title": "An assignment refuses operands on another mesh", "statement": "In the debug build, a field is never assigned from operands that lie on a mesh of another size: the statement throws or stops at a failed assertion instead of combining cells that do not belong together. (Violated: only operands on a smaller mesh are noticed.)", "quantifier": "all meshes of destination and operands, all fields, ghosts, expressions and memories, assignment to all cells or to the interior", "why_tests_cant": "A test assigns between meshes of a few sizes; which cells are combined depends on all extents, and the result on the number of threads.", "anchors": ["spatialops/NeboLhs.h: assign, sequential_assign, thread_parallel_assign", "spatialops/NeboRhs.h: NeboConstField", "spatialops/NeboAssignment.h: operator <<=", "spatialops/structured/MemoryWindow.h: FieldIterator, ConstFieldIterator"]}
{"id": "C101", "title": "Explicit time steps of the heat equation conserve heat, stay bounded and converge", "statement": "The heat equation program, completed with the explicit update temperature <<= temperature + dt * rhs and boundary conditions of the user: in every step each cell changes by dt times the finite-volume right-hand side; the heat in the mesh changes by what flows through the boundary only, and not at all with insulated ends; with a time step of at most the inverse of the largest rate of any cell the temperature stays between the bounds of the initial and boundary values, two runs never drift apart, and the error against a smooth solution is of first order in the time step and second order in the spacing; beyond that limit the bounds fail in one step.", "quantifier": "all meshes of one to three dimensions, spacings, conductivities, heat capacities, initial temperatures, time steps, boundary conditions that depend on time and temperature, and numbers of steps", "why_tests_cant": "A run has one mesh and a few steps; an instability or a leak shows up only after many steps and for some conductivities.", "anchors": ["test/heatEqn/main.cpp: main", "spatialops/NeboAssignment.h: operator <<=", "spatialops/structured/stencil/StencilBuilder.h"]}
{"id": "C102", "title": "Box filters average over their directions, in one, two and three dimensions", "statement": "A box filter built from any of the seven collections of points stores in every interior cell of the destination the mean of the source over the three cells in each of its directions, and changes nothing else; a filter over several directions is the filters over the single directions applied one after the other; affine functions pass unchanged and values stay between the bounds of those in the box; the filtered values of a smooth function differ from it by at most a third of the squared spacing times the bound on its second derivative, for each direction of the filter, and a wave keeps its form, its height multiplied by (1 + 2 cos of its phase per cell)/3; a filter over a direction with a single cell is refused; choosing the filter by the dimensions of the mesh, the filtered coordinates are the coordinates on every mesh.", "quantifier": "all seven filters, meshes of one to three dimensions, ghost counts, fields with values around the interior cells, and memories", "why_tests_cant": "The test filters coordinates on a few meshes; a wrong point in one collection cancels on such fields or never gets used.", "anchors": ["spatialops/NeboStencilBuilder.h: NeboAverageStencilBuilder, BoxFilter3DStencilCollection, BoxFilter2DXYStencilCollection, BoxFilter1DXStencilCollection", "spatialops/structured/stencil/test/test_filter.cpp: run_test", "test/FilterTest.cpp: main"]}
{"id": "C103", "title": "Rounding errors of explicit time steps of the heat equation stay small", "statement": "The heat equation program in floating point: the right-hand side at each cell is exact up to thirteen roundings relative to the temperatures around the cell; with a time step within the stability limit the temperature after N steps differs from that of the exact arithmetic program by at most 45 N roundings of the largest temperature, plus the difference at the start and in the boundary conditions; the total error against a smooth solution of the differential equation is the discretisation error plus these roundings; and a uniform temperature stays exactly uniform.", "quantifier": "all floating-point formats without overflow and underflow, meshes of one to three dimensions, spacings, conductivities, heat capacities, temperatures, boundary conditions, time steps within the limit, and numbers of steps", "why_tests_cant": "A run has one mesh and a few steps and cannot be compared with exact arithmetic; growth of rounding errors shows up only after many steps.", "anchors": ["test/heatEqn/main.cpp: main", "test/heatEqn/tools.h: calculate_flux, calculate_rhs", "spatialops/NeboAssignment.h: operator <<=", "spatialops/structured/SpatialField.h: value_type"]}
{"id": "C104", "title": "Threads do not change the time steps of the heat equation, in floating point either", "statement": "The heat equation program with boundary conditions and update of the temperature, any of its assignments divided into tasks on the thread pool: no two tasks ever race, the program never gets stuck and ends after a bounded number of steps, and it leaves to the last bit the memory that a single thread leaves, whatever the arithmetic. So with threads too the temperature stays within bounds, insulated boundaries keep the heat, and the total error in floating point against a smooth solution is that of the program without threads.", "quantifier": "all arithmetics, floating-point formats included, meshes of one to three dimensions, spacings, time steps, numbers of steps, boundary conditions, choices of which assignments to divide and into how many tasks, and schedules of the tasks", "why_tests_cant": "Tests see a few schedules on one machine; a race or a result that depends on the schedule may show in one run out of millions.", "anchors": ["test/heatEqn/main.cpp: main", "test/heatEqn/tools.h: calculate_flux, calculate_rhs", "spatialops/NeboLhs.h: NeboField::assign, thread_parallel_assign", "spatialops/ThreadPool.h: ThreadPoolFIFO"]}
{"id": "C105", "title": "In floating point a boundary condition holds up to a known error", "statement": "A boundary condition of a registered two-point operator, imposed in floating point: the operator applied afterwards gives at that point the wanted value up to five roundings of the value and of twice the contribution of the cell that is not set. The same holds for several points one after the other, if none needs a cell that another sets, and with three roundings for the Nebo form of boundary conditions. The test of the repository therefore accepts for values that are not tiny in comparison with the field. The contribution of the other cell cannot be left out: a boundary value of 1 next to a cell of value -2^54 is lost.", "quantifier": "all rounding functions with a relative error bound, registered two-point operators, non-zero spacings, sides, values, points, sets of points, masks, fields and their contents", "why_tests_cant": "Tests compare a few values with a tolerance that was found by trial; whether it suffices depends on the magnitude of the field next to the boundary.", "anchors": ["spatialops/structured/stencil/FVStaggeredBCOp.h: BoundaryConditionOp", "spatialops/NeboStencilBuilder.h: NeboBoundaryConditionBuilder", "spatialops/structured/stencil/test/testOpBC.cpp: test_bc_helper"]}
{"id": "C106", "title": "Particle operators conserve and interpolate up to a known error in floating point", "statement": "In floating point, depositing particles on cells conserves the total of their values up to as many roundings as there are particles, and a drift that depends on how small each particle is in comparison with its distance from the origin. Each cell receives, from each particle, its value times the part of the particle that lies in the cell, and each particle the values of the cells weighted by the same parts. Interpolating a field to particles gives values within the range of the field up to as many roundings as there are cells, and the same drift. On the mesh the operators assume, particles that lie on it never make the operators fail or leave the memory in spite of rounding. The drift cannot be left out: a particle that is too small deposits nothing and receives zero.", "quantifier": "all rounding functions with a relative error bound, meshes whose cells are in order, numbers of particles and cells, particle sizes, locations and values, and fields", "why_tests_cant": "Tests use a few particles whose coordinates are exact in double; whether an index computed from rounded numbers can leave the memory needs a proof for all of them.", "anchors": ["spatialops/particles/ParticleOperators.h: ParticleToCell::apply_to_field, CellToParticle::apply_to_field"]}
{"id": "C107", "title": "Lagrange interpolation and differentiation are accurate up to rounding errors", "statement": "In floating point, on a table with strictly increasing points, the value and the derivative of the interpolant are those of a polynomial through order + 1 neighbouring points of the table, among them the two around x, up to a relative error of 5 order + 2 and 6 order + 1 operations, measured by the terms that are added up. For linear interpolation between two points the error is that of seven operations on the larger of the two values, however close the points are. At a point of the table the value is that of the table, without any error. Between the points it need not be exact, not even for constants. If the table holds the values of a smooth function up to some error, the value and the derivative differ from those of the function by at most the classical error of interpolation plus the errors of the data and of the roundings, both amplified by the sum of the weights.", "quantifier": "all rounding functions with a relative error bound below one, tables with strictly increasing points, values, orders from one up, and positions inside the table or outside", "why_tests_cant": "Tests compare a few tables with a tolerance; the growth of rounding errors with the order and with the distances between points has to be bounded for all tables.", "anchors": ["spatialops/structured/onedim/LagrangePoly.cpp: get_bounds, get_interp_coefs_indices, get_derivative_coefs_indices, LagrangeInterpolant::value, LagrangeDerivative::value"]}
{"id": "C108", "title": "Overflow and underflow: where the error bounds hold for real double arithmetic", "statement": "In IEEE double arithmetic, with its limited range, an assignment, a sum of a field or a registered operator gives the exact value up to the rounding errors of C77 and an amount lost by underflow that is stated for every formula, at every cell at which the sizes of the numbers exclude overflow in each operation. Where no result of an operation other than zero is smaller than 2^-1022 or larger than the largest number, an assignment, whose conditions compare fields and numbers, and any program of such assignments on any number of threads leave exactly the numbers in memory that they leave with unbounded exponents; additions and subtractions lose nothing by underflow. Without the conditions nothing holds: a sum of two numbers of the format can overflow, and a product of two numbers that are not zero can be zero.", "quantifier": "all formulas, meshes, fields, registered operators, rounding functions with a relative and an absolute error bound below some largest number, and whatever results follow an overflow", "why_tests_cant": "Tests use numbers near one; a formula has a range of safe inputs that only a bound on every intermediate result shows.", "anchors": ["spatialops/structured/SpatialField.h: AtomicT", "spatialops/Nebo.h: operator <<=, nebo_sum, nebo_sum_interior", "spatialops/structured/stencil/FVStaggeredOperatorTypes.h: OperatorTypeBuilder"]}
{"id": "C109", "title": "Results that need no rounding are exact, and whole numbers up to 2^53 need none", "statement": "An assignment, a sum of a field or a program of assignments on any number of threads gives exactly the result of exact arithmetic if every operation, in exact arithmetic, yields a number of the floating point format. In double this is so for whole numbers without division as long as no result exceeds 2^53 in absolute value: assignments and nebo_sum of counts, indices and markers are exact, and their results are whole numbers again. The limit is sharp: adding 1 to 2^53 changes nothing.", "quantifier": "all formulas, meshes, fields of whole numbers, programs, numbers of threads and schedules, and rounding functions that keep whole numbers up to some limit", "why_tests_cant": "Tests use small counts; that no rounding happens depends on every intermediate result, and the limit is far beyond what a test sums.", "anchors": ["spatialops/structured/SpatialField.h: AtomicT", "spatialops/Nebo.h: operator <<=, nebo_sum, nebo_sum_interior"]}
{"id": "C110", "title": "Which ways of writing a formula give the same floating point numbers", "statement": "Two right-hand sides that differ by the following rules, used any number of times anywhere in them, give the same numbers in floating point, to the last digit but for the sign of zeros, as long as nothing overflows: a+b and b+a; a*b and b*a; a-b and a+(-b); -(-a) and a; -(a-b) and b-a; -(a+b) and -a-b; (-a)*b and -(a*b); (-a)/v and -(a/v); 2*a and a+a; a/2 and a*0.5; a-a and 0; a*0 and 0; a+0, a*1, a/1 and a; cond with equal branches and the branch; a one-point stencil with coefficient 1 and a shift. Programs whose assignments differ by these rules, and in their division among threads, leave the same memory. Other rules change results: (a+b)+c and a+(b+c), (a+b)*c and a*c+b*c, a/b and a*(1/b) differ in double.", "quantifier": "all formulas, sequences of rewritings, meshes, memories of numbers of the format, and roundings that are odd and leave numbers of the format alone", "why_tests_cant": "A test compares two spellings on a few numbers, on which even an invalid rewriting often agrees.", "anchors": ["spatialops/Nebo.h: operator <<=, interior_assign", "spatialops/NeboOperators.h: operator +, -, *, /", "spatialops/structured/SpatialField.h: AtomicT"]}
{"id": "C111", "title": "Rounding does not reverse the order of results: monotone formulas stay monotone and positive ones positive", "statement": "If, for two sets of data, the right-hand side of an assignment rises at a cell by its form (sums of what rises, differences of what rises and what falls, multiples and quotients by numbers of known sign, stencils with coefficients of known sign, products of numbers that are not negative), then the value written in floating point does not fall, and likewise for what falls; nebo_sum and nebo_sum_interior of what rises everywhere do not fall. A right-hand side of numbers that are not negative, without differences and negations, gives no negative value. In particular every registered interpolant and filter rises with the values it reads and makes no negative value from values that are not negative, and programs of assignments that rise with every field (or have no negative numbers) keep the order of two memories (or leave no negative number), in every schedule and division among threads. This holds for every monotone rounding, as rounding to nearest even is with and without underflow.", "quantifier": "all formulas, pairs of memories, cells, meshes and monotone roundings", "why_tests_cant": "A test compares a few data sets; an error of one unit in the last place that reverses an order shows only for particular numbers.", "anchors": ["spatialops/Nebo.h: operator <<=, interior_assign, nebo_sum, nebo_sum_interior", "spatialops/NeboOperators.h: operator +, -, *, /", "spatialops/structured/SpatialField.h: AtomicT"]}
{"id": "C112", "title": "Differences of nearby values are exact, and a difference is zero only where the values are equal", "statement": "For l <<= a - b and interior_assign(l, a - b), where a and b are any expressions that yield numbers of type double: at a cell where the two numbers have the same sign and neither is more than twice the other, the exact difference is written. At every cell what is written is zero only if the numbers are equal, positive only if a is larger and negative only if b is larger, however small they are, because numbers underflow gradually. Exactness fails for some numbers that are not near each other.", "quantifier": "all expressions, memories of numbers of the format, cells, meshes, precisions and smallest exponents; no overflow", "why_tests_cant": "Cancellation and underflow depend on the particular bits of both operands.", "anchors": ["spatialops/Nebo.h: operator <<=, interior_assign", "spatialops/NeboOperators.h: operator -", "spatialops/structured/SpatialField.h: AtomicT"]}
