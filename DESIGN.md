# Formal model of logicaffeine: design

The model is written in Lean 4 (4.33.0). Sources are in `lean/Verif/`:

* `Verif/<Area>/*.lean` – the function-by-function transcription of the Rust code, each definition citing file and lines, the small specifications (under a heading "Specification"), and the helper lemmas (`*Lemmas.lean`, `*Proof.lean`, ...);
* `Verif/Props/*.lean` – the property theorems `Cnn_...`, each beside an `example` that meets its hypotheses. Theorems named `..._partial` prove less than the property and say what is missing; theorems named `..._fails` are concrete counterexamples of the code.

## Trusted base

* Lean's kernel, and the three standard axioms `propext`, `Classical.choice`, `Quot.sound`. No axiom is added, there is no `sorry`, no `native_decide`, no `bv_decide`. Every theorem listed in MANIFEST.json depends on a subset of these three (checked with `#print axioms` by `vcheck`); closed evaluations use `decide` or `decide +kernel`, which the kernel evaluates.
* The transcription from Rust to Lean. It is by hand; every definition says which lines it covers and what it simplifies.
* Conventions used by the transcription, everywhere:
  * `HashMap`/`HashSet`: maps are modelled as total functions with a default, or as association lists without duplicate keys; iteration order is either irrelevant (proved so, by order-independent folds) or a parameter of the model.
  * `&mut self` methods return the new state.
  * a panic (`unwrap`, bounds check, overflow in a debug build) is an explicit error value (`none` or `Except`) when it can matter; otherwise a theorem shows the range in which it cannot happen.
  * machine integers: `Nat`/`Int` with explicit range side conditions, `BitVec`, or explicit `% 2^64` where the Rust code wraps.
  * loops are folds or recursion on fuel; where fuel is used, the proofs show that it is never used up.
  * `sort_by` is a stable insertion sort (`Common/SortBy`), proved a sorted permutation.
  * I/O, threads, clocks and randomness are parameters (the file is a byte list; a crash keeps a prefix of the bytes being written; wall clocks are arbitrary inputs; a schedule is an arbitrary list of choices).
  * floats: `f64` is its 64-bit pattern with sign, exponent and mantissa decoded exactly; only comparison and conversion are modelled, not rounding arithmetic.

### What is modelled

| Area | Lean | Rust (under `crates/`) |
|---|---|---|
| Replicated data | `Crdt/` | `logicaffeine_data/src/crdt/`: gcounter, pncounter, lww, mvregister, orset, ormap, delta_buffer, replica, causal/{dot, vclock, context}, sequence/{rga, yata} |
| Scheduler, executor | `Sched/` | `logicaffeine_runtime/src/`: scheduler, executor (work stealing), seed, task, channel, config, payload |
| Storage | `Store/` | `logicaffeine_system/src/storage/mod.rs`, `distributed.rs`, the native write of `fs/mod.rs`; CRC-32 bit by bit; bincode bytes of GCounter |
| Network | `Net/` | `logicaffeine_compile/src/concurrency/`: fec, stream, part of net_inbox; `logicaffeine_system/src/network/sipping.rs`; `logicaffeine_data/src/wire.rs` and the generated codecs of `logicaffeine_compile/src/codegen/types.rs` |
| Data structures | `Data/` | `logicaffeine_data/src/`: types (sequences, open addressing tables, dense maps, magic division, copy on write), indexing; `logicaffeine_base/src/`: union_find, intern |
| Numbers | `Num/` | `logicaffeine_base/src/`: numeric (BigInt limbs, Rational, Decimal, Complex, Modular), money, dimension, quantity (with the catalogue of units, transcribed by script), uuid (portable and vector code); float comparison of `logicaffeine_data/src/ops.rs` |
| Time | `Time/` | `logicaffeine_base/src/temporal.rs`: civil dates, Julian calendar, ISO weeks, zones, spans, text, clocks |
| Proof checkers | `Proof/` | `logicaffeine_proof/src/`: rup, pr, cnf, dimacs, cardinality, the literals of cdcl, the substitutions of symmetry_detect; unify (terms in full, formulas without application, constructors, match, fixpoints and events; no beta reduction), discrimination |
| SAT solver | `Sat/` | `logicaffeine_proof/src/cdcl.rs`: clauses and watches, propagation, conflict analysis with minimization, backjumping, clause deletion and compaction, inprocessing (subsume, vivify, probe), the loops of solve, solve_budgeted and solve_under_assumptions. Heuristics (activities, order heap, phases, rephasing, LBD, restart and inprocessing schedules) are parameters. Not modelled: theory propagators, decision masks, the layout of the order heap |
| Solvers | `Solve/` | `logicaffeine_proof/src/`: hornsat, twosat, interval_sched, register_alloc, gf2; `logicaffeine_base/src/union_find.rs` |
| Proof kernel | `Kernel/` | `logicaffeine_kernel/src/`: the decision procedures ring, lia, omega, cc, simp with their reification and the parts of reduction.rs that call them; the universe levels of term.rs; terms, free variables, fresh names and substitution (term.rs, type_checker.rs), the α-equality test (type_checker.rs), the termination guard (termination.rs) with the typing rules for Match without indices and for fixpoints, de Bruijn terms, their conversion, shifting, substitution and mutual unfolding (recheck.rs 56-331), the guard of the second kernel, its inference without indexed families, mutual blocks and elimination of propositions, and the cross-check (recheck.rs 791-1660); type inference without Match, Fix, MutualFix and Const, certificates (type_checker.rs 51-527, certificate.rs), the positivity check (positivity.rs), the universe check of constructors (type_checker.rs 528-582), and the commands of the interface without parameters (context.rs, interface/repl.rs 31-123) |
| Language | `Lang/` | `logicaffeine_compile/src/`: the tree-walking interpreter (interpreter.rs: scopes, frames, operators, control flow, functions, closures) and the optimiser passes optimize/fold.rs, optimize/propagate.rs and optimize/dce.rs, on the statements and expressions listed in `Lang/Syntax.lean`; the ownership checker analysis/ownership.rs on its own syntax (`Lang/Ownership.lean`), without its diagnostics and `check_program_collect`; the e-graph pass optimize/egraph/ (enode.rs, mod.rs, extract.rs, rules.rs and of convert.rs the conversion of expressions and of runs of statements; `Lang/EGraph*.lean`) on its own expressions; optimize/abstract_interp.rs (`Lang/Interval*.lean`) and optimize/gvn.rs (`Lang/Gvn*.lean`, without field access and `contains` as computations and without `Pop`, `Add`, `Remove`, index and field assignment and zones); optimize/symmetry.rs (`Lang/Symmetry.lean`) with the certificate of `logicaffeine_kernel/src/bitvector.rs`; optimize/closed_form.rs (`Lang/ClosedForm*.lean`); optimize/popcount_leaf.rs (`Lang/PopcountLeaf.lean`); the encoder and the comparison of `logicaffeine_tv` (symexec.rs, lib.rs; `Lang/Encoder.lean`), without pipes, tasks, `Select` and the seeded mode, the solver and the reading of a printed line being parameters; division by literals in vm/compiler.rs and vm/machine.rs, the integer operations of `reference_eval` (logicaffeine_forge/src/jit.rs) and their specifications (logicaffeine_synth/src/spec.rs) (`Lang/Strength.lean`, `Lang/JitRun.lean`), not the machine code; copy_propagate (logicaffeine_jit/src/lib.rs; `Lang/CopyProp.lean`) and the comparison chosen by fuse_cmp_branch (`Lang/FuseBranch.lean`); optimize/ctfe.rs (`Lang/Ctfe*.lean`) and optimize/inline_tiny.rs (`Lang/Inline*.lean`) |
| Language server | `Lsp/` | `logicaffeine_lsp/src/`: line_index, the text of document.rs, scheduler; the handlers did_open, did_change, did_save and did_close of server.rs with the tasks they spawn and the parts of state.rs and flycheck.rs they use; the wire form of semantic_tokens.rs |
| Virtual machine | `Vm/` | `logicaffeine_compile/src/vm/`: nanbox, the two representations of `Value` in value.rs with their operators, truth and type |

### What is not modelled

* serde/bincode in general (an abstract codec with the round-trip law is a parameter where the journal needs it; GCounter's bytes are concrete, so `C31_counter` assumes no codec);
* the disk losing data it has acknowledged, `io_uring`/OPFS/IndexedDB backends, byte-interleaved concurrent appends, a partial append after an I/O error (its effect is that of C32), two journals with one stem sharing a temporary file;
* allocator and memory behaviour, stack depth (except where a property speaks of it), SIMD variants;
* in the kernel's decision procedures: the call `normalize(ctx, goal)` before reification (the model starts from the term it returns); `BigInt` and `Rational` coefficients are `Int` and `Rat` (C44–C46 prove the limb arithmetic exact) and Euclid's loop is `Nat.gcd`; the e-graph's `find` is a representative search without path compression (`C75_compression` proves compression unobservable) and its `node_map` a search in the node list;
* the parser and the natural language front end, the code generators, the VM, Z3, sockets and TLS;
* the heuristics of the CDCL search (arbitrary parameters of the model) and its theory propagators, the theory engines of `logicaffeine_proof` not listed above.
* The e-graph pass: effects of expressions it does not model (each has one result per state and changes nothing), the statements outside runs (`walk_stmt` and which variables it suppresses), collections named by a place expression in `Push` and index assignment. Which facts the Oracle supplies is a parameter.
* The language server: what analysis, classification and the save check compute (represented by the text they were computed from), the sub-steps of one handler before its first `await` (one step), the setting that turns save checks off.

## Plan per property

### Replicated data types (`Verif/Crdt`)
* C01, C02 – counters as functions `replica → ℕ` with finite support (association lists with unique keys for `value`). Laws by pointwise max. Exactly-once: history semantics (events, nodes, deliveries) with an invariant "entry r of any replica = the largest prefix sum of r's own increments received".
* C03 – clocks as finite maps; lattice laws pointwise.
* C04 – context as (clock, set of cloud dots); `has_seen` of every operation characterised; compaction proved answer preserving; freshness of `next` under the stated provenance hypothesis; a witness shows the hypothesis is needed.
* C05 – expected to fail on timestamp ties: witness for the full statement, `_partial` theorem for distinct timestamps.
* C06 – register as list of (value, clock); merge characterised; laws on value sets for reachable states.
* C07 – OR-Set as (dots per element, context); reachability through a history semantics; membership characterised by the specification "exists add received, not covered by a received remove".
* C08 – witness of three reachable replicas whose merges disagree; `_partial` theorem for commutativity/idempotence.
* C09 – OR-Map on top of the same dot store.
* C10 – buffer as list; expected to fail for concurrent versions: witness, and `_partial` for totally ordered version histories.
* C11–C13 – sequences as finite sets of nodes (id, parent, value, deleted flag); the traversal of the code transcribed; refinement to list edits; convergence from canonicity (the visible list is a function of the node set).

### Runtime (`Verif/Sched`)
* C14–C19 – scheduler state machine transcribed (tasks, channels, timers, ready queue); invariants by induction over arbitrary steps with arbitrary chooser answers. C19 fails for self-abort: witness + partial.
* C16 – chooser record/replay as a state monad over choices; simulation.
* C20 – only the decision logic of the executor is expressible; the OS thread interleaving is modelled as an arbitrary schedule of batches.

### Proof checkers and solvers (`Verif/Proof`, `Verif/Solve`)
* C21 – transcription of `propagate`/`is_rup`/`check_refutation`; soundness by induction on the fuel of the propagation loop and on the certificate.
* C22 – as C21 with PR/SR redundancy: model transformation.
* C23 – Tseitin translation: two-directional semantic lemma by structural induction; atom key collisions are a witness against the full statement; key injectivity proved for atoms over plain names, which makes the equivalence unconditional for them.
* C24 – print/parse at the token level and at the character level.
* C25–C30 – solvers transcribed; certificate checkers proved sound; solvers proved to return what the checker accepts.
* C86 – the triangular substitution of the code is related to a resolved, idempotent one; one induction on (unbound names, size of the resolved term) gives termination, unifier, generality and completeness together. Completeness is false for a name used as free and bound variable at once: partial and a witness.
* C87 – invariant of the matching state (bindings so far are those of every solution). Terms in full; formulas for first-order patterns, capture excluded by a side condition; three witnesses.
* C88 – the term result lifted along the formula, for formulas without quantifiers and worlds; false with either: witnesses.
* C89 – the trie is its multiset of key sequences; retrieval filters that multiset by an alignment of key sequences, which is the alignment of the terms.

### SAT solver (`Verif/Sat`)
* C90 – state invariant (trail, levels, reasons, watches, every clause a consequence of the formula) kept by every step; heuristics are parameters, so the theorems hold for all of them. The history of calls is an inductive predicate. Reuse after an `Unsat`, or `add_clause` after a query, breaks the claim: partial and witnesses.
* C91 – same invariant; decisions below the search are assumptions. Partial for the same reason.
* C92 – a field of the invariant, for the state between calls and at the end of each call.
* C93 – the weight `Σ (n+1)^(n - level)` over the trail grows with every turn of the assumption loop and is bounded by `n (n+1)^n`; with a conflict budget, conflicts and decisions between them are counted.
* C94 – the same invariant kept by each inprocessing step: a strengthened clause is a resolvent, a vivified clause is refuted by propagation under its negation, a failed literal likewise. Probing and vivification cannot panic; compaction in the subsumption round can, so the theorem about `solve` is partial.
* C95 – the invariant of C90 is stated not about models of the formula but about sets of literals closed under unit propagation in the formula and the log (`Sat/World.lean`): clauses in the database act in them as clauses of the formula do, logged clauses are refuted in them, `Unsat` means there is none. By C21 the checker accepts exactly what unit propagation finds. `original_clauses()` is covered because each clause of the formula is a tautology or contains one of them.
* C96 – `entails_certified` and `cdcl_entails` with the modelled solver in place of the arbitrary engine of C24 (`Sat/Entails.lean`): translation (C23), verdict (C94) and certificate (C95) composed into one statement about `Expr.eval`.
* C97 – `find_model` likewise; the letters of the formula are followed through `assert` to show that each has a variable, and the sorted, deduplicated list of names is shown strictly increasing.
* C98 – the substitution lemma of first-order logic for `apply_subst_to_expr`, against Tarskian truth in an arbitrary structure, by induction on the formula; with witnesses where the missing checks change the truth of a formula.

### Proof kernel (`Verif/Kernel`)
* C72 – polynomials as maps from monomials to integers; the reified term's meaning in every commutative ring; completeness by uniqueness of normal forms.
* C73, C74 – Fourier–Motzkin elimination as an equivalence over ℚ, soundness over ℤ; hash order as an arbitrary order of variables; the meaning of a goal given by its own small inductive specification.
* C75 – forest invariant (ranks increase to the root) over arbitrary histories; compression as a state equivalence.
* C76 – e-graph invariant (classes = congruence closure of the asserted equations); soundness in all applicative structures, completeness by the term model.
* C77 – each rewriting step preserves the value in every structure; number of calls bounded only by fuel, so the step bound fails.
* C78 – levels as max-plus expressions: simplification preserves the value, the linear comparison is exact, case split on a fresh variable is exhaustive.
* C79 – a separate specification translates named terms to nameless ones; substitution is proved to be nameless substitution, by interpreting terms in environments (no renaming argument).
* C80 – α-equality as equality of nameless terms; soundness where no binder name is reused and none is free outside, completeness in general; capture and shadowing witnesses.
* C81 – the re-checker's terms interpreted in the same environments; β, mutual unfolding, lowering and raising commute with the named operations.
* C82 – inference transcribed with normalisation, the comparison after it and the rules for Match, Fix, MutualFix and Const as parameters; the property fails, whatever the parameters: witnesses; accepted terms are closed.
* C113 – the guard transcribed in full (`Kernel/Guard.lean`), with the typing rules for Match without indices, Fix and MutualFix tied to the inference of C82; normalisation and the comparison after it stay parameters. What a recursive call is, and which call made it, is said by a call-by-value reading of terms that records calls (`Kernel/GuardRun.lean`), in which global definitions do not unfold and constructors take first-order data. Invariant: each fixpoint being run is covered in its environment by a guard context whose smaller variables are bound to parts. Witness for the flaw.
* C114 – the guard of the second kernel on nameless terms with levels (`Kernel/DbGuard.lean`), its inference (`Kernel/DbInfer.lean`, without indexed families, elimination of propositions, universe-polymorphic names and mutual blocks; head normalisation, subtyping and comparison are parameters), and the verdict of the cross-check. Agreement with the first guard by induction on the term under a relation of the two contexts: each name in scope is a member, smaller, or the parameter exactly if its level is. Witnesses where the guards differ, and for the flaws.
* C115 – the positivity check, the universe check of constructors, the context with its definitions and declarations, and the commands `Definition`, `Check` and `Inductive` without parameters (`Kernel/Session.lean`; elaboration, normalisation and comparison are parameters; the derived recursor is left out). Exact characterisation of the accepted constructor types by induction on the telescope against a part-of relation and a shape for recursive fields; monotonicity of the accepted fields under every reading of the atoms; an invariant over sessions for the recorded types; the universe check against the sorts of the fields, the constructor types a session records and the order in which a type lists its constructors; witnesses for the flaws that hold for every front which takes the few commands as they are.

### Language and optimiser (`Verif/Lang`)
* C83 – a fuel-indexed interpreter parametrised by its operators, so that a second, checked instance stops where a rewrite's assumption on operand kinds is violated; a simulation between a program and its image under the pass, which holds for any pass that acts on expressions; the property fails in full: witnesses.
* C84 – the same simulation, with an invariant that what the pass remembers holds in the current scope; which assignments a statement can make is proved separately (`Lang/Effects.lean`). Proved for programs that declare new names only (`Lang/Scoping.lean`), in full false: witnesses.
* C85 – a forward simulation between states that agree except on names about to be overwritten, for successful runs of tidy programs (`Lang/DceSpec.lean`); in full false: witnesses. Cutting after `Return` is proved for all runs.
* C99 – a separate semantics of runs that tracks only which bindings have been given away, conditions and loop counts arbitrary; the checker's states over-approximate it, by induction on the run with the checker's result as invariant (`Lang/OwnershipProof.lean`). In full false: witnesses.
* C100 – every node of the graph gets a denotation (a result in the world); the invariant `Sound` (`Lang/EGraphSound.lean`) says that merged nodes have equal denotations and that recorded facts are true of them. Each of the 30 rules preserves it (`Lang/EGraphRuleSound.lean`), hence saturation does for every bound on rounds and nodes; conversion and extraction are right for the denotation (`Lang/EGraphSimplify.lean`). Hypotheses in `Lang/EGraphSpec.lean`. In full false: witnesses.
* C101 – the same invariant with a denotation per version of a variable, read off the trace of the original run; versions and values agree along the trace (`Lang/EGraphRunSound.lean`). Semantics of runs and hypotheses in `Lang/EGraphRunSpec.lean`. In full false: witnesses.
* C102 – intervals get a meaning (`Interval.has`); every abstract operator is shown to contain the concrete one on 64-bit integers (`Lang/IntervalSound.lean`), also the decision of comparisons and the narrowing by conditions. A repaired pass, which differs from the code in the places named in `Lang/IntervalSpec.lean`, is simulated by the original program with the invariant that its beliefs are true and protected from calls (`Lang/IntervalSim.lean`, `Lang/IntervalRun.lean`); the pass itself is right where it does the same, and it does the same on careful programs, a syntactic condition (`Lang/IntervalCareful.lean`). In full false: witnesses.
* C108 – the remembered computations are an invariant: each name the pass would reuse holds the value its computation has now, kept by every statement of a safe program (`Lang/GvnSpec.lean`), with the names a call may write as a frame condition (`Lang/GvnEffects.lean`, `Lang/GvnSound.lean`). Hoisting out of one value separately, by an invariant on the temporaries (`Lang/GvnHoist.lean`). In full false: witnesses.
* C109 – a relation between programs that differ only in replaced calls, with a fixed table of functions, gives equal runs when each replacement is right (`Lang/FixedFuns.lean`); a replacement is right because the evaluator's variables and the frame agree on the names in scope, by induction on the depth of calls (`Lang/CtfeSound.lean`). Conditions: functions first, each once, well scoped (`Lang/CallSpec.lean`). In full false: witnesses.
* C110 – the same relation; a replacement is right because substituted parameters have the values the frame would hold (`Lang/InlineSound.lean`). In full false: witnesses.
* C116 – the certificate bit by bit for every width; the first row of any search with a symmetric count, before and after, by running the loops in the interpreter model (`Lang/SymmetryRun.lean`, `Lang/ColourRun.lean`); the project's two programs as wholes, by induction on the rows left and on the nodes left. The programs are fixed up to the names of functions and variables, which are numbers. In full false: witnesses.
* C117 – the recognisers and the formulas of counting, summing and doubling loops, the deferred remainder, the search for initial values, and the solver for recursions with the guarded bodies (`Lang/ClosedForm.lean`; the test whether a function takes and returns numbers is a parameter). Against a vocabulary in terms of the interpreter only (`Lang/ClosedFormSpec.lean`): the loop and its formula run to the same state by induction on the rounds left (`ClosedFormRun`, `ClosedFormSound`, `ClosedFormDefer`), initial values by induction over the statements before (`ClosedFormInit`), whole programs with one loop between statements without calls, and recursions by induction on the argument inside an invariant of the table of solved functions (`ClosedFormRec`); no step of a formula that is put in place of a recursion leaves the numbers of 64 bits (`C117_word`), and a function that is not a recursion on numbers is left alone (`C117_untouched`); witnesses for the flaws. Where the remainder is put off, the range that is tested keeps every sum within 64 bits (`C117_chunk_word`).
* C118 – the recognisers of a bit-mask search, the test for the last level and where it is put (`Lang/PopcountLeaf.lean`; `count_ones` is a builtin of the runtime and assumed to count the ones of a word). `C118_above`: one statement is added and calls above the last level return what they returned; `C118_leaf_partial`: at the last level both functions return the constant times the members, by induction over the members, if the call in the loop has the level and the limit in their places and nothing else happens between the definition of the set and the return; `C118_queens`: the benchmark prints the same on all boards of up to 62 columns; witnesses for the flaws.
* C119 – the encoder of straight-line programs and the comparison with a run (`Lang/Encoder.lean`). Specification (`Lang/EncoderSpec.lean`): what SMT-LIB bit-vector and Boolean terms mean, typed straight-line programs, and runs in which no operator leaves 64 bits (the interpreter with operators that are stuck there). By induction on typed expressions and programs: every typed program is encoded, the error term is true exactly when the run divides by zero, and the lines printed are the displayed outputs, or the first ones if it fails (C119_encoder_partial); hence no false alarm (C119_no_alarm, for a solver that decides closed terms). For every program, a report of agreement means that the error term is right and, if the run succeeded, that every line says what its term stands for (C119_report, for a solver that proves only what is true). The solver (Z3) and the parsing of a line are parameters; `interpret_program` is the interpreter of `Lang/Interp.lean`.
* C120 – division by a literal in the virtual machine, the integer operations of the JIT and the solver's specifications of them (`Lang/Strength.lean`). Specification: the interpreter's own operations (`applyOp`), integer division rounding towards zero, and what a JIT word stands for (`strStands`). Proved: with true facts about the dividend and a dividend of at most 64 bits every replacement gives the interpreter's result (C120_division_partial); with any dividend it gives that result or an error (C120_never_wrong); the JIT's shift and reciprocal are exact (C120_shift, C120_magic); an operation of the JIT that gives a word gives the interpreter's result (C120_jit), and one that leaves does so only on an error or a result outside 64 bits (C120_jit_exit); each solver specification is the operation, precondition included (C120_spec); the shift is chosen only for integers (C120_shift_chosen). Whole programs of `reference_eval` (`Lang/JitRun.lean`: constants, moves, integer operations, jumps, branches, return) are compared with a run over unbounded integers with the interpreter's operations (`Exact`, in `Props/JitRun.lean`): a word returned is the exact result (C120_run), and a program with an exact result returns it or leaves at an operation, given the fuel (C120_run_or_exit). Not modelled: the machine code, the sizes of frames, `NotBool`, operations on floats, lists and texts, calls, and the analysis (its facts are hypotheses).
* C121 – copy propagation in the JIT (`Lang/CopyProp.lean`) on the programs of `Lang/JitRun.lean`. Specification: the run of the program itself (`refRun`) and the exact run (`Exact`). Proved, where no remembered operation of the result of the first phase writes its own operand: the first phase changes no run, whatever the fuel and the frame (C121_propagate_partial; the maps at each place hold of every frame that reaches it), and after all three phases the word is the same or the program leaves (C121_pass_partial). Under the same condition a program that returns still returns the same word, with the same fuel, and every slot that is not scratch holds the same at the end (C121_frame_partial; C121_trim_frame and C121_sweep_frame for every program). Conversely, however the result of the pass ends (but for want of fuel), the program ends so too or leaves (C121_nothing_new_partial). For every program: removing what nothing reads (C121_trim) and what is written again before it is read (C121_sweep) keeps the exact result, both loops run until nothing is left to remove (C121_done), and the first phase changes only read slots (C121_shape). Observed are the returned word and the slots that are not scratch when the program returns; not modelled are the writing back of those slots itself, pinned slots (the choice of scratch slots is a parameter) and the instructions left out of `Lang/JitRun.lean`.
* C122 – the choice of the fused comparison in the JIT (`Lang/FuseBranch.lean`). Specification: the comparison and the jump one after the other, on words by the steps of `Lang/JitRun.lean`, on floats by their bits and the order of IEEE 754. Proved for all words, comparisons and both jumps (C122_words_partial), and for floats where the jump is `JumpIfFalse`, the comparison is `==` or `!=`, or both operands are numbers (C122_floats_partial). Not modelled: the liveness of the compared slot, which decides whether the two are fused, and the conversion of an integer operand.

### Storage and network (`Verif/Store`, `Verif/Net`)
* C31–C33 – disk = byte lists; append may be cut anywhere; replay transcribed. C32 and C33 are expected to fail: witnesses + partial theorems.
* C34 – chunking arithmetic on lists.
* C35 – GF(256) transcribed with its tables; field laws by kernel evaluation over the complete table; Gauss–Jordan and Vandermonde invertibility proved in general (Mathlib's Vandermonde determinant where useful).
* C36, C37 – codec round trips by induction; chunking independence of the deframer.
* C38 – expected to fail when n ≥ 2k: witness + partial.
* C71 – one changed byte of the file: CRC-32 linearity over GF(2).

### Data structures (`Verif/Data`)
* C39–C43 – indexing, open addressing (invariant: every key reachable from its home slot without a gap), dense windows, magic division, copy-on-write heap model.
* C53, C54 – union-find and interner by invariants over histories.

### Numbers (`Verif/Num`)
* C44–C52 – limbs as lists of naturals below 2^64 with denotation to ℕ; each Rust loop transcribed; refinement to ℤ/ℚ.
* C111: exponents of dimensions are pairs of 32-bit integers that wrap around (`Num/Dimension.lean`); quantities and the interpreter's operations on them are over the exact rationals (`Num/Quantity.lean`); the catalogue of 249 units and the table of names is transcribed (`Num/Units.lean`). A program over quantities is given a meaning in ℚ and whole exponents; induction over the program shows that the interpreter computes it as long as no exponent reaches 2^31. Two separate theorems treat fractional exponents of bounded size, and the choice of the best unit by a loop invariant. Not modelled: the text of numbers and dimensions, blanks around unit names, physical constants, `Position` and `SpacetimeStamp`.
* C112: bytes are numbers below 256, sixteen-byte registers lists of them, and each vector instruction used is a function on such lists written from its published description (`Num/Uuid.lean`): that these functions are what the processor does is part of the trusted base. Texts are taken without blanks around them (`trim` is not modelled); digests for versions 3 and 5 are a parameter. `Spells` and `Accepted` in `Props/Uuid.lean` state the spellings without tables or masks. The portable reader is shown equivalent to `Accepted`; the vector reader equal to it lane by lane, except for the control characters 16 to 25; packed runs by an invariant of the accumulating loop; stamping by the bits of the 128-bit number.

### Time (`Verif/Time`)
* C55–C66 – calendar arithmetic over ℤ with Euclidean/truncating division exactly as in Rust, 64-bit overflow as side condition; text round trips at the character level.

### Virtual machine values (`Verif/Vm`)

* C107 – words as natural numbers, memory as a map from addresses to boxed values, the allocator and the shared operators as parameters (`GoodAllocator`, `GoodOps` in `Vm/NanSpec.lean` say what is assumed of them). Bit layout by arithmetic on words; histories by a simulation between the machines with eight- and sixteen-byte registers, with the invariant that every live box belongs to exactly one register (`Vm/NanInv.lean`, `Vm/NanSteps.lean`). In full false of the interface: witness.

### Language server (`Verif/Lsp`)
* C103 – a place is a way of cutting the text in two; both conversions are computed on `pre ++ suf`; boundaries by the shape of the line table. In full false: witnesses.
* C104 – an edit cuts the text in three; histories by induction over notices with C103 at each cut. In full false for characters beyond the end of a line.
* C105 – a transition system over one document in which each read or write of shared state by a spawned task is a step; invariant over all interleavings in which a task past its check is not interrupted (`Lsp/ServerCalm.lean`, `Lsp/ServerInv.lean`); termination by a measure. In full false: witnesses are histories.
* C106 – the protocol's decoding and edits as specification; induction over tokens with the previous place as invariant; histories by the invariant that the cached answer is one the client kept.

## Disagreements found between code and property

Each has a Lean witness (named in brackets) proved about the model; the partial theorem beside it says what does hold.

Replicated data
* C04: a context that has received its own replica's dots from elsewhere without counting them hands out a dot that is already taken (`C04_next_repeats_foreign_own_dot`).
* C05: two last-writer-wins writes with equal timestamps never converge, each side keeps its own (`C05_merge_comm_fails`).
* C08: the remove-wins set diverges for three replicas (`C08_diverges`).
* C09: reinserting a removed key shows the old value merged in.
* C10: the delta buffer can answer with an incomplete list of deltas (`C10_incomplete_fails`); a buffer of size zero keeps nothing.
* C11: an insert beyond the end goes to the front of the text (`C11_out_of_range_goes_to_front`).
* C67: deltas of OR-Set, OR-Map, RGA and YATA removals lose information compared with a full merge.

Scheduler
* C14, C15: a select that names one channel in two arms can lose a value, and puts the task in the ready list twice (`C14_duplicate_arm_fails`, `C15_duplicate_arm_fails`).
* C18: tasks with equal deadlines wake in an order drawn from the chooser, not in order of registration.
* C19: a task that aborts itself is polled again (`C19_self_abort_fails`).
* C20: the work-stealing executor differs from the single-threaded one under LIFO, priority and random policies and when a task aborts a batch mate (`C20_lifo_fails`, `C20_priority_fails`, `C20_random_fails`, `C20_abort_fails`); children get priority 0.

Proof checkers and solvers
* C23: atoms at different worlds, names with commas and different groups share one propositional variable (`C23_alias_fails`).
* C24: a DIMACS variable beyond 2^31 is silently folded onto another one (`C24_large_variable_fails`).
* C25, C26: variables at or above the declared count: 2-SAT skips their clauses, Horn treats them as true in bodies, so solver and checker disagree (`C25_out_of_range_fails`, `C26_out_of_range_fails`).
* C27: an empty task makes the greedy assignment put overlapping tasks on one machine (`C27_empty_task_fails`); an overflow witness that repeats a task is accepted (`C27_repeated_witness_fails`).
* C28: an allocation that gives a live variable no register is accepted (`C28_unlisted_fails`), and so is a spill certificate that repeats a variable (`C28_repeated_spill_fails`).
* C30: with 64 columns, for which the code has a special case, a release build gives a wrong solution and a debug build panics (`C30_64_columns_fails`).

Proof kernel
* C72–C74: the variable `SVar(-1000000)` and the first interned name share one index, so ring, lia and omega accept goals that identify them (`C72_index_fails`, `C73_index_fails`, `C74_index_fails`).
* C72: ring is also used at type Nat, where subtraction stops at zero: `x - y + y = x` is accepted (`C72_nat_fails`).
* C74: omega tightens no equations, so `2x = 1` is not found unsatisfiable, and `1 ≤ 2x → 2 ≤ 2x` is rejected (`C74_parity_fails`, `C74_even_fails`).
* C76: applications added after their arguments were merged are not compared with earlier ones (`C76_late_fails`).
* C77: the fuel of simp bounds the depth, not the number of calls, which grows exponentially (`C77_calls_fails`).
* C78: accepted universe inequalities break when a variable is instantiated with `Prop` or `SProp` (`C78_instantiate_fails`); a variable named like the made-up one is captured (`C78_capture_fails`); the successor of the last 32-bit universe is `Type 0` in a release build (`C78_overflow_fails`). The comment of `is_subtype_of` claims `Type 0 ≤ u`; the code says no.
* C79: a mutual block that declares a name twice changes its meaning under substitution (`C79_duplicate_fails`).
* C80: the α-equality test renames a binder without looking whether the new name is bound inside or free: `λy.y` and `λx.y` are equal (`C80_capture_fails`), and so are the closed terms `λx.λx.x` and `λy.λz.y` (`C80_shadow_fails`). It is not symmetric, not reflexive on mutual blocks, `Const` and NaN, says a hole equals everything and 0.0 equals -0.0 (`C80_symmetric_fails`, `C80_reflexive_fails`, `C80_hole_fails`, `C80_zero_fails`).
* C81: the re-checker's unfolding of a mutual block that mentions a variable from outside replaces that variable by a function of the block; its comment says the projections are closed (`C81_mutual_fails`). A type with a fixpoint is reported with an unbound variable (`C81_raise_fails`).
* C82: the check of proof certificates accepts certificates for `False`: by a shadowed name (`C82_shadow_fails`), by a hole (`C82_hole_fails`), and a certificate that the two projections of a pair of numbers are equal functions (`C82_projections_fails`).
* C113: the termination guard strips as many λ from a case as the constructor has arguments, its type parameters among them, while a case does not bind these: for a type with parameters, such as `TList` of the prelude, the first λ of the result of a case counts as binding a part. A closed term that calls itself on its own argument forever is accepted with type `False` (`C113_false_fails`, `C113_endless_fails`). The second kernel accepts it too (C114).
* C114: the guard of the second kernel has the same flaw as that of the first: it types the same closed term as a proof of `False`, and `double_check` reports `Agreed` on it (`C114_false_fails`). `double_check` also reports `Agreed`, documented as "both kernels accepted", on terms that both refuse (`C114_agreed_fails`). The two guards differ on functions with a parameter name used twice and on parameters whose type is an abbreviation: the first refuses, the second accepts (`C114_names_fails`, `C114_alias_fails`).
* C115: `Definition bad : False := Zero.` is accepted and `bad : False` from then on: the declared type is recorded without comparing it with the type of the body (`C115_definition_fails`). `Inductive Oops := oops : False.` gives a proof of `False` too: the result of a constructor is not looked at (`C115_constructor_fails`). A name may be defined again, and what was checked under the first meaning keeps its type (`C115_redefine_fails`). A refused `Inductive` leaves the type and the earlier constructors behind (`C115_undo_fails`).

Language
* C83: constant folding assumes operand kinds that the run-time values need not have: `"a" + 0` loses the 0 (`C83_text_plus_zero_fails`), `x * 1.0` is no longer a float (`C83_float_one_fails`), `(1 // 0) * 0` no longer fails (`C83_floor_division_fails`), `xs * 0` is no longer an empty list (`C83_list_times_zero_fails`), `n % 2` of a wide number becomes a type error (`C83_wide_mask_fails`), and a closure parameter that shares its name with a Boolean variable is taken for Boolean (`C83_bool_name_fails`).
* C84: constant propagation remembers a constant too long: after the name is declared again (`C84_redeclare_fails`), inside a `Repeat` whose variable has that name (`C84_loop_variable_fails`), after a call of a function that assigns it (`C84_function_sets_global_fails`).
* C85: dead code elimination removes an assignment although a `Break` (`C85_break_fails`), a `Return` (`C85_return_fails`), a call inside an expression (`C85_call_reads_fails`), a closure (`C85_closure_fails`) or a shadowing declaration (`C85_shadow_fails`) comes before the next one; it removes the error of a failing right-hand side (`C85_error_erased_fails`); a branch that is always taken loses its scope, so its declarations leak (`C85_branch_scope_fails`).

Storage
* C32: mount never cuts off a torn tail, so what is appended after it is silently lost or makes the journal unmountable (`C32_silent_loss_fails`, `C32_unmountable_fails`).
* C33: a mutation acknowledged while a compaction is between copying and writing is lost (`C33_race_fails`).
* C71: a changed length byte is taken for a truncated entry and silently drops everything after it (`C71_length_byte_fails`).

Network
* C34: chunk arithmetic wraps at the edges of the word, and a zero chunk size divides by zero (`C34_edges_fails`).
* C37: overlong varints are accepted (`C37_overlong_fails`).
* C38: a message can be delivered twice, and shards of two senders with the same id are mixed (`C38_twice_fails`, `C38_two_senders_fails`).

Data structures
* C39: indexing a text that is not ASCII reads the wrong character (`C39_text_fails`).
* C41: the dense map without presence bits reports keys never inserted (`C41_no_presence_fails`).
* C54: the empty text is given symbol 1 rather than a new one, and symbols wrap at 2^32 (`C54_empty_fails`, `C54_wrap_fails`).

Numbers
* C49: `pow(i32::MIN)` overflows (`C49_pow_min_fails`).
* C51: the float 2^63 is looked up as `i64::MAX` (`C51_key_two63_fails`).

Time
* C56: Julian day conversion is wrong before 1 March -4800 (`C56_julian_before_4800_fails`).
* C58: instants in the first, incomplete day of the range panic in a debug build (`C58_smallest_instant_panics_fails`).
* C59: local times in a gap resolve with the offsets at the extremes of the search (`C59_gap` says which).
* C62: a fraction of 39 digits panics in a debug build (`C62_long_fraction_panics_fails`).
* C63: timestamps outside the 64-bit range wrap (`C63_out_of_range_fails`).
* C64: the logical counter of the hybrid clock wraps at 2^32 (`C64_counter_wraps_fails`).
* C86: unification rejects `x` against a bound `x` although the substitution replaces both alike (`C86_kind_clash_fails`); the composition of `x ↦ y` and `y ↦ x` maps `x` to itself, and applying it recurses for ever (`C86_compose_fails`).
* C87: matching checks a binding against the quantifiers in scope only when the variable is first bound, so a later occurrence under a quantifier can be captured (`C87_capture_fails`); the fallback for unlisted operators compares formulas as written and binds nothing (`C87_temporal_fails`); a match is a one-pass substitution but is applied with the recursive substitution, so a goal that shares a variable name with a lemma overflows the stack (`C87_apply_fails`).
* C88: `∀x ∃x Q(x)` and `∀x ∃y Q(x)` unify (`C88_shadowing_fails`): substitution goes under a quantifier over the same name; the internal constant standing for a quantified variable can escape into the answer (`C88_escape_fails`); a predicate without a world unifies with the same predicate at any world (`C88_world_fails`).
* C98: `apply_subst_to_expr` looks quantified names up like free ones and checks no capture: `x ↦ c` makes `∃x P(c)` of `∃x P(x)` (`C98_quantified_fails`), `x ↦ y, y ↦ z` makes `∃y P(z)` of it because the quantifier is renamed by one step and the variable by two (`C98_chain_fails`), `y ↦ x` makes `∃x R(x, x)` of `∃x R(x, y)` (`C98_capture_fails`).
* C99: the ownership checker looks at a loop body once, so `While c { Give x. }` and `Repeat … { Give x. }` pass although the second iteration gives `x` away again (`C99_while_fails`, `C99_repeat_fails`); conditions, iterables and statements such as `Push` are not looked at (`C99_condition_fails`, `C99_statement_fails`); `Give x` inside an expression does not mark `x` (`C99_expression_fails`); a `Let x` in an inner block makes an outer `x` that was given away usable again (`C99_inner_block_fails`).
* C100: the rules that turn a slice into a copy or a length into a number drop the bounds of the slice without checking that they cannot fail (rules.rs 769–809): `items ((1 / y) * 0 + 1) through (length of zs) of zs` becomes a copy and the division by zero is gone (`C100_slice_bound_fails`). Bit operations count as total (enode.rs 122–134) but fail on integers beyond 64 bits: `(y xor 1) * 0` becomes 0 (`C100_big_operand_fails`).
* C101: binding a quotient later in the run puts a variable into its class, and a variable counts as total: `Show (x / y) * 0. Let q be x / y.` becomes `Show 0. Let q be x / y.`, which shows 0 before it fails (`C101_error_moved_fails`). A call statement makes only collections stale: after `Let mutable g be 1. bump().`, where `bump` sets `g`, `Show g * 2` becomes `Show 2` (`C101_call_changes_variable_fails`). Calls inside expressions are not modelled to have effects; from reading, `Show f()` makes nothing stale at all, so after `Let n be length of xs. Show f().`, where `f` pushes to `xs`, `length of xs` in a larger expression becomes `n`.
* C102: the pass that decides branches by intervals (abstract_interp.rs) is wrong after loops: it keeps the state from before the loop for the variable of the loop condition and narrows it by the negated condition, so after `Let i be 0. While i < 10: Set i to i + 1.` the test `i < 5` counts as true (`C102_loop_variable_fails`; also `C102_loop_bound_fails`, `C102_bound_assigned_fails`, and with `Break` `C102_break_fails`). Lengths are not widened by loops nor changed by `Set` (`C102_push_in_loop_fails`, `C102_set_length_fails`). Narrowing treats floats as integers (`C102_float_fails`). A decided condition is dropped with its calls and errors (`C102_call_dropped_fails`, `C102_error_dropped_fails`). Integers beyond 64 bits count as infinite although the interpreter computes them exactly (`C102_overflow_fails`). A declaration in a block changes the belief about the outer name (`C102_shadow_fails`), and functions that assign globals are ignored (`C102_function_sets_global_fails`). `Bound::sub` puts the overflow of `0 - i64::MIN` on the wrong side (`C102_difference_fails`), the bound for `x % i64::MIN` is one too small (`C102_remainder_fails`), and `Bound::div_by` divides `i64::MIN` by −1 unchecked, which panics (`C102_panic_fails`). From reading only: writes inside `Inspect`, `Concurrent` and zones are not seen.
* C89: the documentation says that term and formula patterns in one tree never cross-match; a lone variable as term pattern answers every formula query (`C89_cross_fails`). No claim of C89 itself is affected.
* C90: `solve_budgeted` does not record a conflict at level 0. Called again on the refuted solver it resumes after the literal that caused the conflict: `a, b, c, ¬a ∨ ¬b ∨ ¬c` is `Unsat`, `Unsat`, `Sat` (`C90_reuse_after_unsat_fails`). A unit clause added after a `Sat` answer that contradicts a decision of that search is taken for a contradiction (`C90_unit_after_query_fails`).
* C91: a clause added after a query whose literals are already false at level 0 is never looked at: the next query answers `Sat` with a model that falsifies it (`C91_clause_after_query_fails`). The incremental model checker adds no clauses between queries.
* C94: compaction rewrites the reasons of all variables, also of unassigned ones whose reason was a deleted clause; that index stays as it is and may lie beyond the shrunk database, and the next compaction indexes its table with it. Two reductions in a row are safe (C90), a reduction followed by a subsumption round is not: `solve` panics (`C94_solve_panics_fails`), and so do `solve_budgeted` and then `subsume()` (`C94_subsume_panics_fails`). In the witness every decision and deletion is the one the code's heuristics make with `set_reduce_limit(12)`, as computed by a simulation of them outside the model; the point at which `solve` restarts and inprocesses is chosen freely.
* C103: `position` slices the text at the offset it is given and panics when that is inside a character (`C103_inside_character_fails`); diagnostics.rs 39 asks for the position of `start + 1` when an error's span is empty, which is such an offset if a multi-byte character starts there. `offset` takes a character beyond the end of a line to the start of the next line, not to the end of the line (`C103_clamp_fails`). A lone `\r` ends a line in the protocol but not in the index (`C103_carriage_return_fails`).
* C104: for the same reason an edit that names the end of a line by a larger character also removes the line break, and the server's text differs from the editor's from then on (`C104_past_end_fails`).
* C105: generations start again at 0 when a document is opened again, so an analysis begun before it was closed passes for current and replaces that of the new text (`C105_reopen_fails`); save checks likewise (`C105_reopen_save_fails`). The check that a result is current and its installation are separate steps (`C105_late_install_fails`, `C105_closed_fails`). An analysis that read the findings before a save check stored new ones and publishes after it removes them from view (`C105_lost_finding_fails`). A save check that ends before its text was analysed hides findings by the errors of the previous text (`C105_hidden_fails`).
* C107: `as_runtime_mut` puts a truth value or float into a box, where `as_bool` and `as_float` no longer find it, although the value is unchanged and the sixteen-byte build finds it (`C107_promoted_fails`). The virtual machine as written only calls it on such values just before it stops with an error, and falls back to interpreting when the two answer nothing, so no program shows the difference.
* C108: common subexpression elimination (gvn.rs) is wrong in several ways. Assigning the name that holds a computation does not make it forgotten (`C108_holder_fails`); neither does declaring again, in a block, a name the computation reads (`C108_shadow_fails`), also in the declaration itself (`C108_self_fails`). A loop body reuses computations from before the loop although it changes what they read, so a loop that ends becomes one that does not (`C108_loop_fails`). Calls of functions that assign globals are ignored, between statements (`C108_call_fails`) and inside one expression (`C108_between_fails`). A computation repeated behind `and` or `or` is hoisted in front of the test that protects it (`C108_guard_fails`). A program may itself use the name `__cse_0` (`C108_name_fails`). Hoisting changes which of two errors is reported (`C108_order_fails`).
* C109: evaluating calls at compile time (ctfe.rs) is wrong for functions that declare a name again in a block (`C109_block_fails`), that read a global after a block that declares its name (`C109_leak_fails`), or that assign a global, which `is_pure_stmt` allows (`C109_global_fails`). The table of functions is built from the whole program, with pure ones only, so a call sees a later definition (`C109_later_fails`), an earlier one when the later one prints (`C109_impure_fails`), or one not yet made (`C109_early_fails`).
* C110: inlining (inline_tiny.rs) lets a block variable at the place of the call capture a global of the body (`C110_capture_fails`), drops the error of an argument that has no value and is not used (`C110_unbound_fails`), and takes the wrong one of several definitions (`C110_later_fails`, `C110_earlier_fails`, `C110_early_fails`).
* C116: symmetry breaking (symmetry.rs) recognises a search by the arguments of its recursive call alone: the set of free columns (`C116_available_fails`), the arguments of the first call (`C116_arguments_fails`), the guard of a counted loop (`C116_guard_fails`) and the range of the inner loop over values (`C116_range_fails`) are not looked at, so searches without the symmetry are cut and print another count. With a negative number of colours the project's own example prints -1 in place of 0 (`C116_negative_fails`). A function without parameters that calls itself in such a loop makes the compiler panic (`C116_panic_fails`).
* C117: closed forms (closed_form.rs) go wrong when the counter is increased before the accumulator reads it (`C117_order_fails`: 6 instead of 9, and `C117_defer_fails` under a remainder), when the body has a definition that can fail (`C117_let_fails`), when the limit reads the accumulator (`C117_limit_fails`) or is not whole (`C117_float_fails`), when a call between the initial value and the loop sets the accumulator (`C117_call_fails`), and for a doubling recursion that starts below 0 over a recursive step (`C117_recursion_fails`: a call that never ends returns -1).
* C118: counting the last level at once (popcount_leaf.rs) asks only for one argument that is the level plus one, for a loop, and for an accumulator that is set to 0 and returned somewhere; it goes wrong when that argument is not the level (`C118_place_fails`: 0 becomes 6), when the call has another limit (`C118_limit_fails`), when the set is changed before the loop (`C118_changed_fails`), when the count starts elsewhere or is changed after the loop (`C118_start_fails`, `C118_after_fails`), and when something is printed before the loop (`C118_show_fails`: the line is lost).
* C119: the encoder of the translation validator (symexec.rs) differs from the interpreter: it wraps at 64 bits where the interpreter goes on with a larger integer (C119_overflow_fails); a division in the right operand of `and` or `or` counts as a failure though the interpreter skips it (C119_skipped_fails); `and`, `or` and `not` on integers are bitwise, where the interpreter gives a truth value (C119_and_fails, C119_not_fails; a comment says "matches the interpreter"). The check against the interpreter reports these, except behind a failure: when the run fails only the error term is looked at, so `Show not 5. Show 1 / 0.` is reported as agreement although the first output is wrong (C119_agrees_fails); the documentation promises agreement on the ordered outputs.
* C120: the mask and the reciprocal are chosen for a dividend proved to be a non-negative integer, with no upper bound asked for (`expr_proven_nonneg`), but both refuse a `BigInt`. A dividend of 2^63 or more, for which the interpreter gives a remainder or quotient, is an error in the virtual machine (C120_wide_fails). The comment at `expr_proven_nonneg` names such a dividend (`seed * 1103515245 + 12345`). The power-of-two quotient is not affected. That a program reaches this was read off the source, not run.
* C121: copy_propagate (logicaffeine_jit/src/lib.rs) remembers, after an operation that writes its own operand, that the operand slots hold the old values: after `i := i + 1` it takes `i` for the next `i + 1`. A program returning 12 returns 11 after the pass (C121_increment_fails); a copy of `i` used as the operand leads to the same (C121_copy_fails). The lowering of `AddAssign` in a region emits such an operation (`translate_op`, `lib.rs` 2368). That a source program reaches this in a compiled region was read off the source, not run.
* C122: fuse_cmp_branch (logicaffeine_jit/src/lib.rs) takes `>=` for the opposite of `<` also between floats. With a NaN, `x < y` is false and the `JumpIfTrue` after it stays; the fused branch jumps, for each of the four orders and whatever the other operand (C122_nan_fails). compile_short_circuit (vm/compiler.rs 2700–2750) emits such a pair for `p and x < y`. That a source program reaches this in a compiled region was read off the source, not run.
* C111: exponents of dimensions wrap around in an optimised build: a metre squared thirty-two times over is a pure number (`C111_overflow_fails`; a debug build panics). Sums, differences and multiples of degrees Celsius and Fahrenheit are computed in kelvin and shown with the offset taken off again, so `30 °C - 20 °C` is `-263.15 °C` (`C111_affine_fails`). Unit names are read without regard to case, so a unit's own symbol can name another unit: `Mm` is read as millimetres, `T` as tonnes (`C111_symbol_fails`).
* C112: the vector reader folds case by setting bit 5 of every character before testing it, so that the control characters 16 to 25 pass as the digits 0 to 9 in the first thirty-two positions: with SSSE3 a text is accepted that the portable build refuses (`C112_simd_fails`). `parse_many` refuses the text `encode_many` writes for no identifiers (`C112_empty_fails`). The prefix `urn:uuid:` is documented as read in any case, but `Urn:uuid:` is refused (`C112_urn_fails`). Times of more than 48 bits wrap in version 7, so that later identifiers sort first (`C112_v7_sorted_fails`).
