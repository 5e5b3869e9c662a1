{"id": "C01", "title": "Grow-only counters converge and count every increment exactly once", "statement": "Merging GCounter replicas is commutative, associative and idempotent as observed through value() and through any further merge; and after any history of increments and merges, two replicas that have received the same set of increments (directly or through any chain of merges, in any order and any number of times) report the same value, which is the total of those increments.", "quantifier": "all replica states; all finite histories of increments and pairwise merges over any number of replicas", "why_tests_cant": "Delivery order, duplication and grouping of merges are unbounded; a test only tries a few gossip orders.", "anchors": ["crates/logicaffeine_data/src/crdt/gcounter.rs: GCounter::increment, value, merge"]}
{"id": "C02", "title": "PN-counters converge; deltas carry the whole difference", "statement": "PNCounter merge is commutative, associative and idempotent, value() equals total increments minus total decrements received; a delta produced by delta_since and applied at a peer leaves the peer in the state a full merge would, and delta_since returns nothing only when the peer's version already covers everything.", "quantifier": "all counter states, all versions, all histories of increment/decrement/merge/delta exchange", "why_tests_cant": "Unbounded histories and version vectors.", "anchors": ["crates/logicaffeine_data/src/crdt/pncounter.rs: PNCounter::increment, decrement, value, merge, delta_since, apply_delta"]}
{"id": "C03", "title": "Vector clocks order causality", "statement": "dominates is a partial order on clock contents (reflexive, transitive, antisymmetric up to zero entries), merge is its least upper bound, two clocks are concurrent exactly when neither dominates, and increment strictly advances the clock.", "quantifier": "all vector clocks over any set of replicas", "why_tests_cant": "The space of clocks is infinite; lattice laws are universal statements.", "anchors": ["crates/logicaffeine_data/src/crdt/causal/vclock.rs: VClock::increment, get, dominates, concurrent, merge_vclock"]}
{"id": "C04", "title": "Causal contexts remember exactly the dots they were given", "statement": "After any sequence of next, add, compact and merge, has_seen(d) answers true exactly when d was generated by next, added, or seen by a merged context; compaction never changes an answer; next never hands out a dot the context has already seen from its own replica, provided dots of that replica only enter through next or merge of contexts that descend from it.", "quantifier": "all finite histories of context operations, all dots", "why_tests_cant": "Out-of-order delivery patterns and compaction points are unbounded.", "anchors": ["crates/logicaffeine_data/src/crdt/causal/context.rs: DotContext::next, has_seen, add, compact, merge"]}
{"id": "C05", "title": "Last-writer-wins registers converge", "statement": "Two LWWRegister replicas that have merged each other's state in either order hold the same value; merge is idempotent and associative; the surviving value carries the greatest timestamp.", "quantifier": "all register pairs and all merge orders", "why_tests_cant": "Ties and orderings range over all timestamp pairs.", "anchors": ["crates/logicaffeine_data/src/crdt/lww.rs: LWWRegister::set, merge"]}
{"id": "C06", "title": "Multi-value registers keep exactly the concurrent maxima", "statement": "MVRegister merge keeps precisely the writes not causally dominated by another surviving write; merge is commutative, associative and idempotent on the set of values; a set on a replica supersedes every value that replica had seen.", "quantifier": "all register states reachable by set and merge", "why_tests_cant": "Concurrent write patterns are unbounded.", "anchors": ["crates/logicaffeine_data/src/crdt/mvregister.rs: MVRegister::set, merge, values"]}
{"id": "C07", "title": "Add-wins OR-Set: membership follows the observed-remove rule and replicas converge", "statement": "For the add-wins OR-Set, an element is a member exactly when some add of it has been received whose dot has not been removed by a replica that had seen it; so an add concurrent with a remove survives, a remove deletes every add it has seen, and replicas that received the same updates agree in any merge order (merge commutative, associative, idempotent on membership).", "quantifier": "all sets of reachable replica states, all elements, all merge orders", "why_tests_cant": "Concurrency patterns of add/remove/merge are unbounded.", "anchors": ["crates/logicaffeine_data/src/crdt/orset.rs: ORSet::add, remove, contains, merge, AddWins"]}
{"id": "C08", "title": "Remove-wins OR-Set replicas converge", "statement": "For the remove-wins OR-Set, replicas that have exchanged the same updates agree on membership whatever the merge order.", "quantifier": "all reachable triples of replica states", "why_tests_cant": "Merge orders of three or more replicas with concurrent adds and removes are not enumerable by tests.", "anchors": ["crates/logicaffeine_data/src/crdt/orset.rs: RemoveWins, ORSet::merge"]}
{"id": "C09", "title": "OR-Map keys behave as an add-wins set and values merge per key", "statement": "After merging, a key is present exactly when the add-wins rule keeps it, and the value at a key present on both sides is the merge of both sides' values; merge is commutative and idempotent on the visible map.", "quantifier": "all pairs of map states and all keys", "why_tests_cant": "Unbounded key sets and concurrency patterns.", "anchors": ["crates/logicaffeine_data/src/crdt/ormap.rs: ORMap::get, get_or_insert, remove, merge, delta_since, apply_delta"]}
{"id": "C10", "title": "A delta buffer never hands out an incomplete delta sequence", "statement": "When deltas_since(v) answers with a list, applying the list to any peer whose version is v yields everything pushed so far that v lacks; otherwise it answers that a full sync is needed. The buffer never holds more than its configured size.", "quantifier": "all push histories, all peer versions, all buffer sizes", "why_tests_cant": "Eviction interacts with arbitrary peer versions.", "anchors": ["crates/logicaffeine_data/src/crdt/delta_buffer.rs: DeltaBuffer::push, deltas_since"]}
{"id": "C11", "title": "Local edits of a replicated sequence act like list edits", "statement": "On one replica, append(v) makes the visible list l++[v], insert_before(i,v) makes it the list with v inserted at i, insert_after(i,v) the list with v inserted at i+1, and remove(i) the list without element i, for any state reachable by edits and merges; out-of-range removals change nothing.", "quantifier": "all reachable sequence states, all indices and values", "why_tests_cant": "Tombstones, nesting and concurrent inserts create unboundedly many internal trees for one visible list.", "anchors": ["crates/logicaffeine_data/src/crdt/sequence/rga.rs: RGA::append, insert_before, insert_after, remove, to_vec"]}
{"id": "C12", "title": "Replicated sequences converge and keep relative order", "statement": "Replicas holding the same set of insertions and deletions show the same list whatever order they merged in; merge is commutative, associative and idempotent; merging never reorders two elements already visible on a replica and never loses an element nobody removed.", "quantifier": "all reachable states and merge orders", "why_tests_cant": "Delivery orders and interleavings are unbounded.", "anchors": ["crates/logicaffeine_data/src/crdt/sequence/rga.rs: RGA::merge, sorted_nodes"]}
{"id": "C13", "title": "YATA sequences: local edits act like list edits and replicas converge", "statement": "The YATA sequence satisfies the same list-refinement and convergence laws as C11 and C12.", "quantifier": "all reachable states, indices, values and merge orders", "why_tests_cant": "Unbounded edit histories.", "anchors": ["crates/logicaffeine_data/src/crdt/sequence/yata.rs: YATA::append, insert_before, insert_after, remove, merge, sorted_items"]}
{"id": "C14", "title": "Channels are FIFO, lossless and bounded", "statement": "Every value a task sends on a channel is either still in transit or delivered to exactly one receiver, values leave in the order their sends were accepted, and the number of buffered values never exceeds the channel's capacity, under every scheduling policy and any mix of send, recv, try-send, try-recv, select, close, abort and timeouts that does not name one channel twice in a select.", "quantifier": "all programs, all schedules, all capacities", "why_tests_cant": "The schedule space is unbounded.", "anchors": ["crates/logicaffeine_runtime/src/scheduler.rs: do_send, do_recv, do_try_send, do_try_recv, refill, deliver_to_receiver, do_select; channel.rs"]}
{"id": "C15", "title": "The scheduler never loses or duplicates a runnable task", "statement": "At every point of every run, a task is in the ready collection exactly once if it is runnable and not at all otherwise; a blocked task is registered with exactly what it waits for.", "quantifier": "all programs and schedules (no self-abort, no duplicate select arm)", "why_tests_cant": "Lost-wakeup bugs appear only in particular interleavings.", "anchors": ["crates/logicaffeine_runtime/src/scheduler.rs: mark_ready, pick_ready, process_step, fire_timer, complete_task"]}
{"id": "C16", "title": "Recorded runs replay exactly", "statement": "Running a program with a seeded chooser and replaying the recorded trace makes every scheduling decision identically, so the replay reaches the same state and outcome; slicing a run into any step budgets changes nothing.", "quantifier": "all programs, seeds and slice sizes", "why_tests_cant": "Traces are arbitrarily long.", "anchors": ["crates/logicaffeine_runtime/src/seed.rs: SeededRng, Chooser::decide, into_trace; scheduler.rs: run, run_slice"]}
{"id": "C17", "title": "Deadlock is reported exactly when nothing can ever run", "statement": "A run ends in Deadlock only when no task is ready, no timer and no I/O wake is pending, and some task is still blocked; and it ends Completed only when the main task has finished.", "quantifier": "all reachable scheduler states", "why_tests_cant": "Requires reasoning about all blocked configurations.", "anchors": ["crates/logicaffeine_runtime/src/scheduler.rs: poll_once, run"]}
{"id": "C18", "title": "Virtual time is monotone and timers fire in deadline order", "statement": "The logical clock never decreases, jumps exactly to the earliest pending deadline when idle, and timers fire in order of their deadlines, never early and never late; timers due at the same moment fire in an order drawn from the recorded choices.", "quantifier": "all timer sets and schedules", "why_tests_cant": "Timer orders are unbounded.", "anchors": ["crates/logicaffeine_runtime/src/scheduler.rs: advance_timers, fire_timer"]}
{"id": "C19", "title": "An aborted task never runs again", "statement": "After Abort(t) takes effect, task t is never polled again and its result is reported as aborted to every waiter.", "quantifier": "all programs, all targets including the aborting task itself", "why_tests_cant": "Needs all interleavings of abort with pending wakeups.", "anchors": ["crates/logicaffeine_runtime/src/scheduler.rs: do_abort, complete_task; task.rs"]}
{"id": "C20", "title": "The work-stealing executor produces the cooperative trace", "statement": "For any program and seed the multi-threaded executor delivers the same result as the single-threaded run.", "quantifier": "all programs, policies and thread interleavings", "why_tests_cant": "Thread interleavings are not enumerable.", "anchors": ["crates/logicaffeine_runtime/src/executor.rs: run_work_stealing, apply_step"]}
{"id": "C21", "title": "An accepted RUP refutation means the clauses are unsatisfiable", "statement": "If check_refutation accepts a list of learned clauses for a CNF, no assignment satisfies the CNF; hence an Entailed verdict confirmed by the checker is sound whatever the search engine returned.", "quantifier": "all CNFs, all certificates, all assignments", "why_tests_cant": "Soundness is a statement about every assignment and every certificate, including adversarial ones.", "anchors": ["crates/logicaffeine_proof/src/rup.rs: check_refutation, is_rup, propagate, entails_certified"]}
{"id": "C22", "title": "An accepted PR/SR refutation means the clauses are unsatisfiable", "statement": "If check_pr_refutation accepts a derivation with propagation-redundancy and substitution-redundancy witnesses, no assignment satisfies the original CNF.", "quantifier": "all CNFs, derivations and witnesses", "why_tests_cant": "Redundancy steps are not consequences; soundness needs a model-transformation argument over all assignments.", "anchors": ["crates/logicaffeine_proof/src/pr.rs: check_pr_refutation, is_pr, substitution_sr, assignment_pr"]}
{"id": "C23", "title": "Clausal translation preserves meaning", "statement": "The clauses produced for a set of formulas are satisfiable exactly when the formulas are, and every model of the formulas extends to a model of the clauses; so refuting the clauses of premises plus negated goal proves the goal.", "quantifier": "all propositional formulas and valuations", "why_tests_cant": "Formulas nest without bound.", "anchors": ["crates/logicaffeine_proof/src/cnf.rs: Cnf::encode, assert, assert_neg, clause_lits, lit_of_atom, atom_key"]}
{"id": "C24", "title": "DIMACS print/parse round-trips", "statement": "Parsing the printed form of any CNF whose literals are in range gives the same CNF back.", "quantifier": "all CNFs", "why_tests_cant": "Infinite input space.", "anchors": ["crates/logicaffeine_proof/src/dimacs.rs: parse, print"]}
{"id": "C25", "title": "2-SAT verdicts are correct", "statement": "twosat::solve returns a satisfying assignment or a refutation the checker accepts; the checker accepts a refutation only for unsatisfiable instances, and satisfies() accepts only real models.", "quantifier": "all 2-CNF instances and certificates", "why_tests_cant": "All instances and all forged certificates.", "anchors": ["crates/logicaffeine_proof/src/twosat.rs: solve, satisfies, is_refutation"]}
{"id": "C26", "title": "Horn-SAT verdicts are correct", "statement": "hornsat::solve returns the least model when one exists and otherwise a derivation of a violated goal; accepted models satisfy every clause and accepted refutations imply unsatisfiability.", "quantifier": "all Horn instances with in-range variables", "why_tests_cant": "Fixpoint iteration over arbitrary clause sets.", "anchors": ["crates/logicaffeine_proof/src/hornsat.rs: solve, derivation, satisfies, is_refutation"]}
{"id": "C27", "title": "Interval scheduling is optimal and its certificates mean what they say", "statement": "schedule_or_overflow returns a valid schedule on the given machines when one exists, and otherwise an overflow witness; an accepted overflow witness proves no schedule exists.", "quantifier": "all finite interval sets and machine counts", "why_tests_cant": "All interval sets and forged witnesses.", "anchors": ["crates/logicaffeine_proof/src/interval_sched.rs: schedule_or_overflow, greedy_assign, is_valid_schedule, is_overflow_witness"]}
{"id": "C28", "title": "Register allocation never overlaps live ranges", "statement": "An accepted allocation gives two overlapping live ranges different registers below the limit; an accepted spill certificate proves that no allocation exists.", "quantifier": "all live-range sets and register counts", "why_tests_cant": "All inputs and forged certificates.", "anchors": ["crates/logicaffeine_proof/src/register_alloc.rs: allocate, is_spill_certificate"]}
{"id": "C29", "title": "Cardinality encodings are exact", "statement": "The at-most-k, at-least-k and exactly-k encodings are satisfiable under a fixed assignment of the input literals exactly when that assignment makes at most, at least, exactly k of them true.", "quantifier": "all literal lists, all k, all assignments", "why_tests_cant": "Exponentially many assignments for every size.", "anchors": ["crates/logicaffeine_proof/src/cardinality.rs: at_most, at_least, exactly"]}
{"id": "C30", "title": "GF(2) linear solving is exact", "statement": "solve_gf2 returns a solution space whose members are exactly the solutions, or reports inconsistency exactly when there is none; is_invertible_gf2 is true exactly for matrices with trivial kernel.", "quantifier": "all systems with fewer than 64 columns", "why_tests_cant": "All matrices.", "anchors": ["crates/logicaffeine_proof/src/gf2.rs: is_invertible_gf2, solve_gf2"]}
{"id": "C31", "title": "A crash during an append loses at most the operation in flight", "statement": "If the process dies after any number of bytes of a journal append reached the disk, remounting recovers the state before the operation or after it, and every earlier acknowledged mutation.", "quantifier": "all operation histories, all crash points (every byte offset)", "why_tests_cant": "Crash points are every byte of every history.", "anchors": ["crates/logicaffeine_system/src/storage/mod.rs: Persistent::mount, mutate, replay_journal; JournalHeader"]}
{"id": "C32", "title": "Acknowledged mutations survive crash, recovery and further use", "statement": "After a crash and remount, mutations acknowledged since the remount are recovered by the next mount too.", "quantifier": "all histories with any number of crashes at any byte", "why_tests_cant": "Multi-crash histories are never in unit tests.", "anchors": ["crates/logicaffeine_system/src/storage/mod.rs: mount, mutate, replay_journal; storage/distributed.rs"]}
{"id": "C33", "title": "Compaction never changes or loses recovered state", "statement": "Compacting the journal and remounting recovers the same state, also when a crash hits during compaction or a mutation is acknowledged while a compaction runs.", "quantifier": "all histories, crash points and interleavings of compaction with mutation", "why_tests_cant": "Races and crash points inside compaction.", "anchors": ["crates/logicaffeine_system/src/storage/mod.rs: compact, maybe_compact; storage/distributed.rs: do_compact, mutate"]}
{"id": "C34", "title": "Chunked files reassemble exactly", "statement": "Concatenating all chunks of a file in index order gives the file, for every chunk size at least one; chunk_count equals the number of non-empty chunks and out-of-range chunks are refused.", "quantifier": "all file contents, chunk sizes and indices", "why_tests_cant": "All sizes and boundaries.", "anchors": ["crates/logicaffeine_system/src/network/sipping.rs: chunk_count, get_chunk, manifest"]}
{"id": "C35", "title": "Any k of n redundant shards rebuild the message", "statement": "For 1<=k<=n<=256, encoding a payload into n shards and decoding any list of received shards that contains at least k distinct ones (in any order, with duplicates) returns exactly the payload; fewer than k distinct shards are refused.", "quantifier": "all payloads, all k and n, all subsets, orders and duplications of shards", "why_tests_cant": "Binomially many shard subsets of every payload.", "anchors": ["crates/logicaffeine_compile/src/concurrency/fec.rs: encode, decode, invert, encode_matrix, mul, div"]}
{"id": "C36", "title": "Stream deframing is independent of chunking", "statement": "Feeding a concatenation of framed messages to the deframer in any chunking delivers exactly those messages in order, never early, never twice, and holds no bytes at frame boundaries.", "quantifier": "all message lists, all chunkings", "why_tests_cant": "Chunkings are exponential in stream length.", "anchors": ["crates/logicaffeine_compile/src/concurrency/stream.rs: frame_for_stream, StreamDeframer::push, drain_frames, read_uvarint"]}
{"id": "C37", "title": "The wire codec round-trips every value and is self-delimiting", "statement": "Decoding the encoding of any integer, boolean, float bit pattern, text, (nested) list or value of a generated enum type returns that value and stops exactly at the end of its bytes, whatever follows; decoding never reads past the buffer.", "quantifier": "all values, all trailing bytes", "why_tests_cant": "All values of unbounded nesting.", "anchors": ["crates/logicaffeine_data/src/wire.rs: write_uvarint, read_uvarint, zigzag, unzigzag, write_str, read_str, WireEncode, WireDecode"]}
{"id": "C38", "title": "A redundant message is delivered at most once", "statement": "However its n shards arrive (any subset, order, duplication), a redundant message is handed to the program at most once, and exactly once when at least k distinct shards arrive.", "quantifier": "all arrival sequences of one message's shards", "why_tests_cant": "All arrival orders.", "anchors": ["crates/logicaffeine_compile/src/concurrency/net_inbox.rs: NetInbox::drain"]}
{"id": "C39", "title": "One-based indexing addresses the right element", "statement": "Index i in 1..len reads element i, -i reads the i-th from the end, anything else fails loudly; set then get returns the value and leaves other positions alone; text indexing returns the i-th character.", "quantifier": "all sequences, texts and 64-bit indices", "why_tests_cant": "All lengths, indices and character widths.", "anchors": ["crates/logicaffeine_data/src/indexing.rs: resolve_logos_index, LogosIndex, LogosIndexMut, LogosGetChar"]}
{"id": "C40", "title": "The specialised integer maps and sets behave as maps and sets", "statement": "After any sequence of inserts, get returns the last value inserted for the key and nothing for keys never inserted, len is the number of distinct keys, and no probe loops forever, for every key including zero and any table growth.", "quantifier": "all insert sequences, all keys, all initial capacities", "why_tests_cant": "Collision patterns and resize points are unbounded.", "anchors": ["crates/logicaffeine_data/src/types.rs: LogosI64Map, LogosI64Set, LogosI32Map, LogosI32Set"]}
{"id": "C41", "title": "Dense maps and sets behave as maps and sets inside their window", "statement": "For keys inside the window, the dense map, the presence-free map and the dense set answer exactly like a finite map/set.", "quantifier": "all insert sequences and keys inside the window", "why_tests_cant": "All windows and sequences.", "anchors": ["crates/logicaffeine_data/src/types.rs: LogosDenseI64Map, LogosDenseI64MapNoPresence, LogosDenseI64Set"]}
{"id": "C42", "title": "Precomputed division is exact", "statement": "For every non-zero 64-bit divisor d and every 64-bit n, LogosDivU64::new(d).div(n) = n/d and rem(n) = n mod d, with no overflow inside.", "quantifier": "all 2^64 dividends and 2^64-1 divisors", "why_tests_cant": "2^128 cases.", "anchors": ["crates/logicaffeine_data/src/types.rs: LogosDivU64::new, div, rem"]}
{"id": "C43", "title": "Copy-on-write isolates values", "statement": "Under value semantics, mutating a sequence through one handle after cow() is never visible through any other handle, and without sharing no copy is made.", "quantifier": "all handle graphs and mutation sequences", "why_tests_cant": "Alias graphs are unbounded.", "anchors": ["crates/logicaffeine_data/src/types.rs: LogosSeq::clone, cow, push, set_nested"]}
{"id": "C44", "title": "BigInt arithmetic is exact integer arithmetic", "statement": "add, sub, mul, truncated div_rem, pow, comparison, negation, abs, parity, i64 conversion both ways and byte (de)serialisation agree with mathematical integers for all values, and every result is in canonical form so structural equality is numeric equality.", "quantifier": "all integers of any size", "why_tests_cant": "Carries, borrows and limb boundaries over unbounded sizes.", "anchors": ["crates/logicaffeine_base/src/numeric.rs: BigInt, mag_add, mag_sub, mag_mul, mag_divrem, mag_cmp, Mag"]}
{"id": "C45", "title": "BigInt decimal text round-trips", "statement": "parse_decimal(to_string(x)) = x, the printed text is the usual decimal numeral, and parse_decimal accepts exactly signed digit strings.", "quantifier": "all integers, all texts", "why_tests_cant": "Chunk padding at 19 digits over unbounded sizes.", "anchors": ["crates/logicaffeine_base/src/numeric.rs: BigInt::fmt, parse_decimal"]}
{"id": "C46", "title": "Rational arithmetic is exact and canonical", "statement": "Rational operations compute the exact rational, always in lowest terms with positive denominator, so equality, hashing and ordering are those of the numbers; floor, ceil and round are the mathematical ones; division by zero is the only refused case.", "quantifier": "all rationals", "why_tests_cant": "Infinite domain.", "anchors": ["crates/logicaffeine_base/src/numeric.rs: Rational"]}
{"id": "C47", "title": "Decimal arithmetic is exact and rounding follows its mode", "statement": "Decimal add, sub and mul are exact; rescale and div return the multiple of 10^-scale selected by the rounding mode, off by less than one unit (at most half for half modes); equality and order are by value.", "quantifier": "all decimals, scales and modes", "why_tests_cant": "Ties, signs and scales.", "anchors": ["crates/logicaffeine_base/src/numeric.rs: Decimal, round_rational_to_bigint"]}
{"id": "C48", "title": "Money never mixes currencies and never drifts", "statement": "Adding or subtracting money succeeds exactly when currencies agree and is exact; amounts stay at the currency's minor unit; conversion is the exact cross rate rounded once.", "quantifier": "all amounts, currencies and rate tables", "why_tests_cant": "All amounts.", "anchors": ["crates/logicaffeine_base/src/money.rs: Money, RateTable::convert"]}
{"id": "C49", "title": "Complex arithmetic is exact Gaussian-rational arithmetic", "statement": "add, sub, mul, div, recip and pow agree with the field of Gaussian rationals; only division by zero is refused.", "quantifier": "all Gaussian rationals and exponents", "why_tests_cant": "Infinite domain.", "anchors": ["crates/logicaffeine_base/src/numeric.rs: Complex"]}
{"id": "C50", "title": "Modular arithmetic is the ring Z/n", "statement": "Modular values stay in [0,n), operations agree with integer arithmetic mod n, pow is modular exponentiation, inverse exists exactly for units and multiplies to one, mixing moduli is refused.", "quantifier": "all moduli, residues and exponents", "why_tests_cant": "Infinite domain.", "anchors": ["crates/logicaffeine_base/src/numeric.rs: Modular, bigint_egcd"]}
{"id": "C51", "title": "Mixed integer/float comparison is exact", "statement": "Comparing an integer or rational with a float compares the mathematical values; NaN compares with nothing; a float used as an integer key matches exactly the integer it equals.", "quantifier": "all 64-bit integers and all 2^64 float bit patterns", "why_tests_cant": "2^128 cases.", "anchors": ["crates/logicaffeine_base/src/numeric.rs: cmp_i64_f64_exact, decompose_f64, rational_from_f64_exact", "crates/logicaffeine_data/src/ops.rs: logos_i64_key_of_f64"]}
{"id": "C52", "title": "Equal numbers hash equally across numeric types", "statement": "An i64, BigInt, float and rational with the same mathematical value have the same numeric hash.", "quantifier": "all values of all four types", "why_tests_cant": "Infinite domain; a property of pairs.", "anchors": ["crates/logicaffeine_base/src/numeric.rs: numeric_hash_i64, numeric_hash_bigint, numeric_hash_f64, numeric_hash_rational"]}
{"id": "C53", "title": "Union-find represents the equivalence generated by the unions", "statement": "After any sequence of make_set, union and find, find(x)=find(y) exactly when x and y are linked by unions; find terminates, returns a member of the class and never changes the classes; union reports whether it merged two classes.", "quantifier": "all operation sequences", "why_tests_cant": "Path compression and rank interplay over unbounded sequences.", "anchors": ["crates/logicaffeine_base/src/union_find.rs: UnionFind::make_set, find, union"]}
{"id": "C54", "title": "Interning is faithful", "statement": "resolve(intern(s)) = s, interning the same text twice gives the same symbol, different texts get different symbols, symbols stay valid, and the empty text is symbol zero.", "quantifier": "all sequences of interned texts", "why_tests_cant": "All histories.", "anchors": ["crates/logicaffeine_base/src/intern.rs: Interner::intern, resolve, lookup"]}
{"id": "C55", "title": "Gregorian day numbers are exact for every year", "statement": "days_from_civil and civil_from_days are mutually inverse between valid dates and day numbers, consecutive dates get consecutive numbers, and 1970-01-01 is day 0.", "quantifier": "all years (unbounded), months, days", "why_tests_cant": "Infinitely many dates; leap rules and negative years.", "anchors": ["crates/logicaffeine_base/src/temporal.rs: days_from_civil, civil_from_days, last_day_of_month, is_gregorian_leap"]}
{"id": "C56", "title": "Julian day conversions are inverse", "statement": "julian_from_days and days_from_julian are mutually inverse on valid Julian dates.", "quantifier": "all Julian dates from the year -4800 on, and what happens before", "why_tests_cant": "Infinitely many dates.", "anchors": ["crates/logicaffeine_base/src/temporal.rs: jdn_from_julian, julian_from_jdn"]}
{"id": "C57", "title": "ISO week dates are inverse and within range", "statement": "iso_week_from_days returns a week in 1..53 and weekday in 1..7 and days_from_iso_week inverts it; the ISO year's Thursday rule holds.", "quantifier": "all day numbers", "why_tests_cant": "Infinitely many dates.", "anchors": ["crates/logicaffeine_base/src/temporal.rs: iso_week_from_days, days_from_iso_week"]}
{"id": "C58", "title": "Instants decompose into civil time and back", "statement": "unix_nanos_from_civil(civil_from_unix_nanos(t)) = t with all fields in range, for every 64-bit instant.", "quantifier": "all 2^64 instants", "why_tests_cant": "2^64 cases, including the first partial day.", "anchors": ["crates/logicaffeine_base/src/temporal.rs: civil_from_unix_nanos, unix_nanos_from_civil"]}
{"id": "C59", "title": "Zone conversion round-trips", "statement": "Converting an instant to local time and back gives the instant when its local time is unambiguous, and one of the two instants sharing it, as selected by fold, otherwise; local times that occur are never mapped to an instant showing another local time.", "quantifier": "all transition tables, instants and local times", "why_tests_cant": "All tables.", "anchors": ["crates/logicaffeine_base/src/temporal.rs: offset_at, to_local, from_local"]}
{"id": "C60", "title": "Calendar span arithmetic clamps and counts months consistently", "statement": "add_span yields a valid date and clamps to month end; months_between(a,b) is the greatest k with a plus k months not after b, antisymmetric in its arguments.", "quantifier": "all instants and spans", "why_tests_cant": "Month-end interplay over all dates.", "anchors": ["crates/logicaffeine_base/src/temporal.rs: add_span, months_between, years_between"]}
{"id": "C61", "title": "Business-day arithmetic counts weekdays", "statement": "business_days_between(a,b) is the number of weekdays in [a,b) (negated when reversed); add_business_days(z,n) lands on a weekday for n other than 0 and passes exactly |n| weekdays.", "quantifier": "all day numbers and counts", "why_tests_cant": "All weekday phases and spans.", "anchors": ["crates/logicaffeine_base/src/temporal.rs: business_days_between, add_business_days"]}
{"id": "C62", "title": "Durations print and parse back", "statement": "parse_duration(format_duration(n)) = n for every 64-bit n.", "quantifier": "all 2^64 durations", "why_tests_cant": "2^64 cases.", "anchors": ["crates/logicaffeine_base/src/temporal.rs: format_duration, parse_duration"]}
{"id": "C63", "title": "Timestamps print and parse back", "statement": "parse_rfc3339(format_rfc3339(t)) = t for every 64-bit instant; accepted texts denote valid dates and times.", "quantifier": "all 2^64 instants, all texts", "why_tests_cant": "2^64 cases.", "anchors": ["crates/logicaffeine_base/src/temporal.rs: format_rfc3339, parse_rfc3339"]}
{"id": "C64", "title": "Hybrid logical clocks respect causality", "statement": "tick and recv return a timestamp strictly greater than every input timestamp, and at least the wall clock, so along any chain of local events and messages timestamps strictly increase whatever the wall clocks do.", "quantifier": "all event histories over any number of nodes with arbitrary wall clocks", "why_tests_cant": "Clock skew patterns are unbounded.", "anchors": ["crates/logicaffeine_base/src/temporal.rs: Hlc::tick, recv"]}
{"id": "C65", "title": "SyncClock merge is a join and only narrows knowledge", "statement": "SyncClock::merge is commutative, associative and idempotent; observation and merge never widen an interval; if all observations contain the true time so does every merged interval.", "quantifier": "all clocks, all observation histories", "why_tests_cant": "All histories.", "anchors": ["crates/logicaffeine_base/src/temporal.rs: SyncClock::merge, observe, EstimateInterval::intersect"]}
{"id": "C66", "title": "Leap-second conversion is invertible", "statement": "tai_to_unix_seconds(unix_to_tai_seconds(t)) = t and the nanosecond TT conversion round-trips for every instant; conversion to TAI is strictly monotone.", "quantifier": "all instants", "why_tests_cant": "All instants around and away from leap boundaries.", "anchors": ["crates/logicaffeine_base/src/temporal.rs: tai_minus_utc, unix_to_tai_seconds, tai_to_unix_seconds, tt_nanos_from_unix_nanos, unix_nanos_from_tt_nanos"]}
{"id": "C67", "title": "Exchanging deltas is equivalent to exchanging states", "statement": "When a replica hands out a delta for a peer's version, applying it leaves the peer showing what a full merge would show; when it hands out none, a full merge would change nothing the peer shows. (For every replicated type offering deltas: counters, registers, OR-Set, OR-Map, sequences.)", "quantifier": "all reachable pairs of replica states of each type", "why_tests_cant": "Histories of operations and partial exchanges are unbounded.", "anchors": ["crates/logicaffeine_data/src/crdt/delta.rs: DeltaCrdt", "crates/logicaffeine_data/src/crdt/orset.rs: delta_since, apply_delta", "crates/logicaffeine_data/src/crdt/ormap.rs: delta_since, apply_delta", "crates/logicaffeine_data/src/crdt/sequence/rga.rs: delta_since, apply_delta"]}
{"id": "C68", "title": "Named zones follow their daylight rule every year", "statement": "For each named zone, the local time of every instant is the instant shifted by the standard offset, or by the daylight offset exactly between the changeover instants of that year (second Sunday of March / first Sunday of November at 2:00 local in North America; last Sundays of March and October at 1:00 UTC in Europe; first Sundays of April and October in Sydney).", "quantifier": "all instants (all years, before and after the epoch), all twelve zones", "why_tests_cant": "changeovers fall on different dates each year; tests check a few years", "anchors": ["crates/logicaffeine_base/src/temporal.rs: zone_by_name, ZoneSpec::to_local, ZoneSpec::transitions, dst_transitions_for_year, nth_weekday_of_month"]}
{"id": "C69", "title": "Scheduling policies pick what they promise and FIFO is fair", "statement": "Under the FIFO and round-robin policies a runnable task with k others before it is polled within the next k+1 polls, whatever other tasks do, unless it is aborted first; LIFO polls the most recently readied task, the priority policy a task of the highest priority and among those the earliest readied; a task keeps its priority.", "quantifier": "all programs, all reachable states, all later histories", "why_tests_cant": "Starvation shows only over unbounded runs.", "anchors": ["crates/logicaffeine_runtime/src/scheduler.rs: pick_ready, mark_ready", "crates/logicaffeine_runtime/src/config.rs: SchedulePolicy"]}
{"id": "C70", "title": "A seeded run never panics", "statement": "Whatever channels and tasks are created, steps taken and I/O completions delivered, in any order, the scheduler does not panic, as long as tasks name channels that exist, deadlines fit 64 bits, no task aborts itself and no select names a channel twice.", "quantifier": "all programs, policies, seeds and histories", "why_tests_cant": "Needs every internal unwrap to be safe in every reachable state.", "anchors": ["crates/logicaffeine_runtime/src/scheduler.rs: poll_once, process_step, pick_ready, deliver_to_receiver, advance_timers", "crates/logicaffeine_runtime/src/seed.rs: Chooser::decide"]}
{"id": "C71", "title": "A damaged journal is reported, not silently accepted", "statement": "If any one byte of a stored journal changes on the disk, mounting it returns an error; it never returns a state that was not written.", "quantifier": "all journals, all byte positions, all byte values", "why_tests_cant": "Every position of every journal would have to be damaged.", "anchors": ["crates/logicaffeine_system/src/storage/mod.rs: replay_journal, JournalHeader::encode, decode"]}
{"id": "C72", "title": "The ring tactic proves exactly the polynomial identities", "statement": "For every goal that is an equation of terms built from integer literals, variables, add, sub and mul, the ring tactic accepts the goal if and only if both sides have the same value for every value of the variables; in particular an accepted equation holds in every commutative ring.", "quantifier": "all goals, all sizes and nestings of terms, all integer literals, all assignments to numbered and named variables", "why_tests_cant": "Identities hold at infinitely many points; tests evaluate some equations at some terms. Canonical forms and the variable numbering can only be trusted for all terms by proof.", "anchors": ["crates/logicaffeine_kernel/src/ring.rs: Monomial::mul, Polynomial::{add,neg,sub,mul,canonical_eq}, reify", "crates/logicaffeine_kernel/src/reify.rs: VarInterner, extract_*", "crates/logicaffeine_kernel/src/reduction.rs: try_try_ring_reduce, try_dring_solve_conclude"]}
{"id": "C73", "title": "The lia tactic decides linear comparisons over the rationals", "statement": "The lia tactic accepts a comparison of linear terms if and only if it holds for all rational values of its variables, so every accepted comparison also holds for all integers; a set of constraints is reported unsatisfiable if and only if no rational assignment satisfies all of them.", "quantifier": "all finite sets of strict and non-strict linear constraints, all linear goals, all assignments", "why_tests_cant": "Fourier-Motzkin elimination multiplies constraints; a wrong sign or a lost strictness shows only on particular systems among infinitely many.", "anchors": ["crates/logicaffeine_kernel/src/lia.rs: LinearExpr, Constraint::is_satisfied_constant, reify_linear, goal_to_negated_constraint, fourier_motzkin_unsat, eliminate_variable", "crates/logicaffeine_kernel/src/reduction.rs: try_try_lia_reduce, try_dlia_solve_conclude"]}
{"id": "C74", "title": "The omega tactic proves only true integer goals, whatever the hash order", "statement": "A goal accepted by the omega tactic, with any number of hypotheses, is true for all integer values of its variables, whatever the hypotheses it cannot read mean; the verdict does not depend on the order in which the variables are eliminated; and integer-specific contradictions such as 2x = 1 are recognised.", "quantifier": "all goals with hypotheses, all integer assignments, all hash-set iteration orders", "why_tests_cant": "The iteration order of a hash set differs between runs and the assignments are infinitely many.", "anchors": ["crates/logicaffeine_kernel/src/omega.rs: IntExpr, IntConstraint::normalize, goal_to_negated_constraint, omega_unsat, eliminate_variable_int", "crates/logicaffeine_kernel/src/reduction.rs: extract_implications, try_try_omega_reduce, omega_hyp_constraints, try_domega_solve_conclude"]}
{"id": "C75", "title": "Union-find answers connectivity", "statement": "After any history of make_set, find and union on existing elements, find gives two elements the same representative exactly when the unions made so far connect them; union answers whether it joined two classes; make_set numbers elements in order; find always returns; path compression is not observable.", "quantifier": "all histories of calls, all elements", "why_tests_cant": "The forest depends on the whole history and find changes it.", "anchors": ["crates/logicaffeine_base/src/union_find.rs: UnionFind::{make_set,find,union}"]}
{"id": "C76", "title": "The cc tactic proves exactly the consequences of its equations", "statement": "A goal h1 -> ... -> hn -> l = r between applicative terms is accepted by the cc tactic only if the conclusion holds in every structure in which the hypotheses hold, and every such consequence is accepted.", "quantifier": "all goals with any number of hypotheses, all terms, all structures", "why_tests_cant": "Congruences propagate through arbitrarily deep terms and depend on the order of merges.", "anchors": ["crates/logicaffeine_kernel/src/cc.rs: EGraph::{add,merge,propagate,congruent,equivalent}, reify, check_goal, decompose_goal", "crates/logicaffeine_kernel/src/reduction.rs: try_try_cc_reduce, try_dcc_solve_conclude"]}
{"id": "C77", "title": "The simp tactic is sound, computes literal arithmetic, and stops after 1000 steps", "statement": "A goal accepted by the simp tactic holds in every structure with integer arithmetic; an equation between arithmetic terms whose variables are given values by hypotheses is accepted exactly when both sides compute to the same value; the procedure stops after the documented number of steps whatever the hypotheses.", "quantifier": "all goals with any number of rewriting hypotheses, including looping ones, all structures", "why_tests_cant": "Rewriting with arbitrary hypotheses, some of which loop.", "anchors": ["crates/logicaffeine_kernel/src/simp.rs: simplify_sterm, try_arithmetic, check_goal, decompose_goal", "crates/logicaffeine_kernel/src/reduction.rs: try_try_simp_reduce, try_dsimp_solve_conclude"]}
{"id": "C78", "title": "Universe subtyping is decided exactly and survives instantiation", "statement": "is_subtype_of accepts two universe expressions exactly when the first is at most the second for every value of the universe variables; max, imax and succ denote the maximum, the impredicative maximum and something strictly larger; no universe belongs to itself; what is accepted for universe variables stays accepted when the variables are instantiated.", "quantifier": "all universe expressions of any depth, all assignments of levels to the variables, all instantiations", "why_tests_cant": "The assignments are infinitely many, and the procedure splits on made-up variables for nested imax.", "anchors": ["crates/logicaffeine_kernel/src/term.rs: Universe::{is_subtype_of,equiv,succ,max,imax,substitute_universe}, LNat, simp, leq_aux, lnat_leq"]}
{"id": "C79", "title": "Substitution replaces exactly the free occurrences and never captures", "statement": "Substituting a term for a variable in another term replaces exactly the free occurrences of the variable; free variables of the replacement stay free; the result does not depend on the names of bound variables; made-up names differ from all names they must avoid.", "quantifier": "all terms of the kernel language, all variable names, all replacements", "why_tests_cant": "Capture depends on arbitrary coincidences of names at arbitrary depth.", "anchors": ["crates/logicaffeine_kernel/src/type_checker.rs: substitute, free_vars, fresh_name", "crates/logicaffeine_kernel/src/term.rs: Term"]}
{"id": "C80", "title": "Type equality is equality up to bound names", "statement": "The structural equality test on terms answers yes exactly when the two terms differ in the names of bound variables only; it is reflexive, symmetric and agrees with the renaming.", "quantifier": "all pairs of terms", "why_tests_cant": "The test renames binders on the way down; which coincidences of names matter depends on the whole pair.", "anchors": ["crates/logicaffeine_kernel/src/type_checker.rs: types_equal, types_equal_inner"]}
{"id": "C81", "title": "The independent re-checker sees and computes the same terms", "statement": "The re-checker's form of a term determines it up to the names of bound variables; every closed term without holes has one; beta reduction and the unfolding of mutual fixpoints give the same term as in the main kernel; a type it reports lowers to the same form again.", "quantifier": "all terms, all scopes, all reductions", "why_tests_cant": "Index arithmetic goes wrong only below particular nestings of binders.", "anchors": ["crates/logicaffeine_kernel/src/recheck.rs: to_db, from_db, shift, subst, beta_open, open_mutual", "crates/logicaffeine_kernel/src/reduction.rs: the MutualFix step"]}
{"id": "C82", "title": "An accepted proof certificate proves its claim", "statement": "A certificate is accepted only if its term really is a proof of the claimed proposition: in particular there is no accepted certificate for False, the term is closed and has no holes, and a variable has the type of the binder it refers to.", "quantifier": "all certificates, all declarations of the standard library, all behaviours of the normaliser", "why_tests_cant": "There are infinitely many candidate proofs of False; tests try some.", "anchors": ["crates/logicaffeine_kernel/src/certificate.rs: recheck", "crates/logicaffeine_kernel/src/type_checker.rs: infer_type, check_type, infer_sort, is_subtype", "crates/logicaffeine_kernel/src/context.rs: Context::extend"]}
{"id": "C83", "title": "Constant folding does not change what a program does", "statement": "Running a program after the constant-folding pass prints the same lines and ends in the same way, with the same error if any, as running it before, whatever the order in which the pass's hash set of Boolean candidates is visited.", "quantifier": "all programs (functions, closures, loops and recursion included), all run lengths, all behaviours of the primitive operations, all hash orders", "why_tests_cant": "Programs are infinitely many; each rewrite rule is right for the operand kinds its author had in mind and the value kinds at run time are not known to the pass.", "anchors": ["crates/logicaffeine_compile/src/optimize/fold.rs: fold_stmts, fold_expr, try_fold_binary, try_simplify, collect_bool_vars, expr_is_total, expr_is_boolean", "crates/logicaffeine_compile/src/interpreter.rs: evaluate_expr, execute_stmt, apply_binary_op, Environment"]}
{"id": "C84", "title": "Constant propagation does not change what a program does", "statement": "Running a program after the constant-propagation pass prints the same lines and ends in the same way as running it before.", "quantifier": "all programs (functions, closures, loops, shadowing and recursion included), all run lengths, all behaviours of the primitive operations", "why_tests_cant": "Whether a remembered constant is still the value of the name depends on scopes, loops and calls nested to any depth.", "anchors": ["crates/logicaffeine_compile/src/optimize/propagate.rs: propagate_stmts, propagate_stmt, substitute_identifiers, collect_all_set_targets", "crates/logicaffeine_compile/src/interpreter.rs: execute_stmt_sync, Environment"]}
{"id": "C85", "title": "Dead code elimination does not change what a program does", "statement": "Running a program after dead code elimination (assignments that are overwritten, branches with a constant condition, statements after a Return) prints the same lines and ends in the same way as running it before.", "quantifier": "all programs (functions, closures, loops, shadowing and recursion included), all run lengths, all behaviours of the primitive operations", "why_tests_cant": "An assignment is dead only if no path, call or closure reads it, for every placement of the statements between the two assignments.", "anchors": ["crates/logicaffeine_compile/src/optimize/dce.rs: eliminate_dead_code, dead_store_elimination, collect_expr_reads, collect_stmt_reads", "crates/logicaffeine_compile/src/interpreter.rs: execute_stmt_sync, Environment"]}
{"id": "C86", "title": "Term unification returns a most general unifier", "statement": "unify_terms always ends. If it returns a substitution, applying it to the two terms gives the same term, and every other common instance is an instance of that one; if it returns an error, the terms have no common instance. compose_substitutions of two substitutions acts like applying one and then the other.", "quantifier": "all pairs of terms, all instantiations of their variables", "why_tests_cant": "The occurs check and the chains of bindings depend on how variables are shared between the two terms, without bound.", "anchors": ["crates/logicaffeine_proof/src/unify.rs: unify_terms, unify_terms_with_subst, apply_subst_to_term, occurs, compose_substitutions"]}
{"id": "C87", "title": "One-sided matching is exact", "statement": "match_term_pattern and match_expr_pattern succeed exactly when some substitution of the pattern's free variables turns the pattern into the target without capturing a variable, and return that substitution; applying it to the lemma's premises gives their instances.", "quantifier": "all patterns, all targets", "why_tests_cant": "Sharing of pattern variables and nesting of quantifiers are unbounded.", "anchors": ["crates/logicaffeine_proof/src/unify.rs: match_term_pattern, match_expr_pattern, match_bind, match_term_into, match_expr_into, apply_subst_to_expr", "crates/logicaffeine_proof/src/lemma_index.rs: LemmaIndex::matches"]}
{"id": "C88", "title": "Formula unification returns a most general unifier", "statement": "If unify_exprs returns a substitution, the two formulas become the same up to the names of their quantified variables, in the most general way; if it returns an error no substitution of the free variables does that.", "quantifier": "all pairs of formulas, all instantiations of their free variables", "why_tests_cant": "Whether a quantified variable can escape or be shadowed depends on arbitrary nesting.", "anchors": ["crates/logicaffeine_proof/src/unify.rs: unify_exprs, unify_exprs_with_subst, apply_subst_to_expr, fresh_alpha_constant"]}
{"id": "C89", "title": "The discrimination tree never misses a match", "statement": "Every pattern inserted into the tree that matches a query is among the candidates returned for it; the candidates are exactly the patterns that agree with the query outside variables and opaque parts, each once per insertion; retrieval never reads out of range.", "quantifier": "all sequences of insertions of term and formula patterns, all queries", "why_tests_cant": "The retrieval walks a trie and the query in step over subterms of any shape; a wrong skip loses lemmas silently.", "anchors": ["crates/logicaffeine_proof/src/discrimination.rs: DiscTree, insert_term, insert_expr, candidates_term, candidates_expr, retrieve, skip_pattern_subterm, subterm_jumps"]}
{"id": "C90", "title": "Verdicts of the SAT solver are right", "statement": "On a Solver that has been given clauses with add_clause and queried any number of times, solve_budgeted answers Sat only with a model that satisfies every clause added, answers Unsat only if the clauses have no model, and does not panic, whatever branching, restarts and clause deletion do.", "quantifier": "all clause sets, all sequences of add_clause and solving calls, all conflict budgets, all behaviours of the branching, restart and deletion heuristics", "why_tests_cant": "Watched literals, learned clauses and backjumps interact over searches of unbounded length; a verdict is wrong only on the rare path where an invariant broke long before.", "anchors": ["crates/logicaffeine_proof/src/cdcl.rs: Solver::new, add_clause, solve_budgeted, propagate, analyze, minimize, backtrack_to, reduce_db, compact"]}
{"id": "C91", "title": "Queries under assumptions are right and independent of each other", "statement": "solve_under_assumptions answers Sat only with a model of every clause and every assumption, answers Unsat only if no model of the clauses satisfies the assumptions, and does not panic; the answers do not depend on earlier queries with other assumptions.", "quantifier": "all clause sets, all sequences of calls and assumptions, all behaviours of the heuristics", "why_tests_cant": "What an earlier query learned and left on the trail is reused; the histories are unbounded.", "anchors": ["crates/logicaffeine_proof/src/cdcl.rs: solve_under_assumptions, backtrack_to, analyze", "crates/logicaffeine_verify/src/bmc.rs: find_counterexample_incremental"]}
{"id": "C92", "title": "Learned clauses are consequences of the formula alone", "statement": "Every clause in learned() after any sequence of solving calls holds in every model of the clauses the solver was loaded with, whatever assumptions the calls made.", "quantifier": "all clause sets, all sequences of solving calls and assumptions, all behaviours of the heuristics", "why_tests_cant": "A learned clause that silently depended on an assumption or a deleted clause is wrong only for a later query.", "anchors": ["crates/logicaffeine_proof/src/cdcl.rs: learned, analyze, minimize, lit_redundant, add_clause_raw"]}
{"id": "C93", "title": "Solving calls end", "statement": "solve_under_assumptions always returns, and solve_budgeted with a non-zero conflict budget always returns.", "quantifier": "all clause sets, all sequences of solving calls, all assumptions, all behaviours of the heuristics", "why_tests_cant": "The search jumps back and forth; that it cannot cycle is a statement about runs of any length.", "anchors": ["crates/logicaffeine_proof/src/cdcl.rs: solve_under_assumptions, solve_budgeted"]}
{"id": "C94", "title": "solve with inprocessing answers right", "statement": "solve, which deletes, shortens and subsumes learned clauses and probes literals between restarts, answers Sat only with a model of all clauses and Unsat only for an unsatisfiable formula, and does not panic; the public subsume, vivify and probe calls return false only for an unsatisfiable formula; every clause in the learned log holds in every model of the formula.", "quantifier": "all clause sets, all histories of earlier calls that left the solver usable, all behaviours of the search heuristics, all inprocessing schedules", "why_tests_cant": "Inprocessing rewrites the clause database in place while watch lists, reasons and the trail refer to it; which clauses it meets depends on thousands of conflicts before it.", "anchors": ["crates/logicaffeine_proof/src/cdcl.rs: Solver::solve, subsume, vivify, probe, learned"]}
{"id": "C95", "title": "Every Unsat of the solver comes with a refutation the checker accepts", "statement": "After solve or solve_budgeted answers Unsat (or an inprocessing call returns false), check_refutation accepts the solver's learned log as a refutation, both of the clauses that were loaded and of original_clauses(); and each logged clause by itself passes the reverse-unit-propagation test against the formula and the clauses logged before it.", "quantifier": "all clause sets, all histories of calls that left the solver usable, all behaviours of the search heuristics, all inprocessing schedules", "why_tests_cant": "The certified entry points turn a rejected certificate into 'unsupported'; whether the replay succeeds depends on every clause minimised, shortened, strengthened or deleted during the search.", "anchors": ["crates/logicaffeine_proof/src/cdcl.rs: Solver::solve, solve_budgeted, learned, original_clauses", "crates/logicaffeine_proof/src/rup.rs: check_refutation"]}
{"id": "C96", "title": "The certified propositional verdict is exactly right", "statement": "entails_certified answers Entailed when the premises entail the goal and NotEntailed when they do not, and never falls back to 'unsupported' because its own certificate was rejected; cdcl_entails gives the same answers.", "quantifier": "all finite lists of propositional premises, all goals, all behaviours of the search heuristics and inprocessing schedules", "why_tests_cant": "The answer passes through a structure-hashing translation, a learning search and a certificate replay; a disagreement anywhere shows only for particular formulas and search histories.", "anchors": ["crates/logicaffeine_proof/src/rup.rs: entails_certified, certified_from_cnf", "crates/logicaffeine_proof/src/cnf.rs: cdcl_entails, into_solver"]}
{"id": "C97", "title": "find_model returns a model over exactly the letters of the formula", "statement": "find_model answers Unsat only for a formula that is false under every valuation; Sat lists each propositional letter of the formula exactly once, in order of name, and the formula is true under every valuation that agrees with the list; a propositional formula is never Unsupported.", "quantifier": "all propositional formulas, all behaviours of the search heuristics and inprocessing schedules", "why_tests_cant": "The bindings are read back through the variable numbering of the translation; a letter dropped or swapped there is visible only in formulas where it matters.", "anchors": ["crates/logicaffeine_proof/src/sat.rs: find_model, decode_model_from, collect_atoms"]}
{"id": "C98", "title": "Applying a substitution to a formula means what it should", "statement": "In every first-order structure, the formula apply_subst_to_expr(e, s) is true of a valuation exactly when e is true of the valuation that reads each free variable as its replacement.", "quantifier": "all formulas with quantifiers and connectives, all substitutions, all structures and valuations", "why_tests_cant": "Whether a replacement is captured or a quantified name is replaced depends on the names in formula and substitution; tests use names that do not clash.", "anchors": ["crates/logicaffeine_proof/src/unify.rs: apply_subst_to_expr, apply_subst_to_term"]}
{"id": "C99", "title": "A program that passes the ownership check uses nothing after giving it away", "statement": "If check_program accepts a program, then no run of it, whichever way its conditions come out and however often its loops run, reads or gives away a variable whose value it has given away before.", "quantifier": "all programs, all outcomes of conditions, all numbers of loop iterations", "why_tests_cant": "The check is flow-sensitive over branches, loops, scopes and functions; a wrong merge shows only on a particular path through a particular program.", "anchors": ["crates/logicaffeine_compile/src/analysis/ownership.rs: OwnershipChecker::check_program, check_stmt, check_not_moved, merge_states"]}
{"id": "C100", "title": "Simplifying an expression does not change its result", "statement": "Given facts about the kinds, ranges and lengths of subexpressions that are true, the expression the e-graph pass puts in place of another evaluates to the same value, or fails with the same error, under every assignment of the variables.", "quantifier": "all expressions, all true facts, all values of the variables and results of unmodelled expressions, all limits on the number of rounds", "why_tests_cant": "Thirty rewrite rules interact through merged classes, recorded facts and a cost-based choice; a rule that is wrong for one kind or range of operands shows only when the other rules bring such operands to it.", "anchors": ["crates/logicaffeine_compile/src/optimize/egraph/convert.rs: simplify_expr, Converter::to_node, tree_to_expr", "crates/logicaffeine_compile/src/optimize/egraph/rules.rs: all", "crates/logicaffeine_compile/src/optimize/egraph/mod.rs: EGraph, saturate", "crates/logicaffeine_compile/src/optimize/egraph/extract.rs: best_tree_filtered"]}
{"id": "C101", "title": "Simplifying a run of statements does not change what it does", "statement": "A sequence of Let, Set, Show, assert, Return, Push, index assignment and call statements shows, stores and returns the same, or fails in the same way, after the e-graph pass has rewritten all its expressions in one shared graph.", "quantifier": "all such sequences, all surrounding programs and called functions, all initial states, all true facts", "why_tests_cant": "An expression is replaced by a variable that holds its value; whether that is still so depends on every statement in between and on what called functions change.", "anchors": ["crates/logicaffeine_compile/src/optimize/egraph/convert.rs: flush_run, walk_stmts, Converter::bump, bump_collection_reads"]}
{"id": "C102", "title": "Deciding branches by intervals does not change what a program does", "statement": "After the interval analysis has replaced conditions it believes decided and removed the branches not taken, the program prints the same and ends in the same way as before.", "quantifier": "all programs with functions, loops, Break, blocks and assignments, all behaviours of the abstract operations, all amounts of fuel", "why_tests_cant": "What the analysis believes depends on the whole history of assignments, loops, scopes and calls before a condition; a wrong belief removes a branch only in the programs that reach it with a value the analysis excluded.", "anchors": ["crates/logicaffeine_compile/src/optimize/abstract_interp.rs: abstract_interp_stmts, interp_block, Interval, Bound, narrow_state, join_states, collect_writes"]}
{"id": "C103", "title": "Editor positions and byte offsets denote the same places", "statement": "Converting a byte offset to a line and character and back gives the same place; lines are counted by line breaks and characters in UTF-16 units; conversion never panics; a character beyond the end of a line means the end of that line.", "quantifier": "all texts, all offsets, lines and characters, also ones that do not exist", "why_tests_cant": "Offsets count UTF-8 bytes and positions UTF-16 units, so every mixture of one- to four-byte characters, line breaks and out-of-range positions is a different case.", "anchors": ["crates/logicaffeine_lsp/src/line_index.rs: LineIndex::new, position, offset, line_start_offset, utf16_length"]}
{"id": "C104", "title": "The language server's copy of a document is the editor's", "statement": "After any history of opening, incrementally editing and closing documents, the text the server holds for each document is the text the editor holds, and its version is that of the last change.", "quantifier": "all texts, all histories of edits to any number of documents", "why_tests_cant": "Edits are sent as ranges in lines and UTF-16 units and accumulate: one misplaced edit corrupts the text for the rest of the session.", "anchors": ["crates/logicaffeine_lsp/src/document.rs: apply_content_change", "crates/logicaffeine_lsp/src/scheduler.rs: Scheduler::open, apply_changes, current_if, current_text, is_current, close"]}
{"id": "C105", "title": "Once the language server is at rest, the client has the diagnostics of the current text", "statement": "After any history of opening, changing, saving and closing a document and any interleaving of the analyses and save checks this starts, when all of them have ended, the snapshot is of the current text, the diagnostics last published are those of the current text and version together with the findings of a check of that text, and a closed document has none.", "quantifier": "all histories of notices, all interleavings of the steps of all spawned tasks", "why_tests_cant": "Stale results are dropped by comparing generation counters; whether a stale result slips through depends on the order of steps of several concurrent tasks.", "anchors": ["crates/logicaffeine_lsp/src/server.rs: did_open, did_change, did_save, did_close, analyze_and_publish", "crates/logicaffeine_lsp/src/scheduler.rs: Scheduler", "crates/logicaffeine_lsp/src/flycheck.rs: Flycheck::begin_save, clear, forget, complete", "crates/logicaffeine_lsp/src/state.rs: install_snapshot, close_document"]}
{"id": "C106", "title": "The client paints what the server classified", "statement": "A client that decodes the semantic tokens of a document as the protocol says paints every classified non-empty piece of the text at its place with its length, type and modifiers; and over any history of requests for tokens and for changes of tokens, each answer gives the client the tokens of that moment.", "quantifier": "all texts, all lists of classified pieces in the order of the text, all histories of requests naming any earlier answer", "why_tests_cant": "Each token is encoded relative to the one before and each answer relative to an earlier one, so an error shows only for particular neighbouring tokens or histories.", "anchors": ["crates/logicaffeine_lsp/src/semantic_tokens.rs: encode_spans, semantic_token_edits", "crates/logicaffeine_lsp/src/server.rs: semantic_tokens_full, semantic_tokens_full_delta", "crates/logicaffeine_lsp/src/state.rs: cache_semantic_tokens, cached_semantic_tokens"]}
{"id": "C107", "title": "The eight-byte values of the virtual machine behave as the sixteen-byte ones and own their boxes", "statement": "Built with eight-byte values, the virtual machine reads from every register the value it would read with sixteen-byte values, gives the same results and errors for arithmetic and comparison, and answers the same about type, truth and whole-number value; every value survives being packed and unpacked; it never reads or frees a box that is not live, and every live box belongs to one register, so none is leaked.", "quantifier": "all values (whole numbers and floats of 64 bits, every bit pattern), all histories of filling, copying, taking, dropping, changing in place and operating on registers, all allocators", "why_tests_cant": "The packing uses the bit patterns of a float that is not a number, so 2^64 words must be kept apart; who owns a box depends on the whole history of moves, copies and drops.", "anchors": ["crates/logicaffeine_compile/src/vm/nanbox.rs: Narrow, is_tagged, tag_of, int, float, bool, nothing, heap, as_int, as_float, as_bool, as_inline_int, from_runtime, into_runtime, to_runtime, make_heap_mut, Drop, Clone, int_add", "crates/logicaffeine_compile/src/vm/value.rs: Value (both representations), is_truthy, type_name"]}
{"id": "C108", "title": "Sharing common subexpressions does not change what a program does", "statement": "A program in which repeated computations have been replaced by the name of an earlier result, or computed once into a new name, ends as the original does, with the same error if any, and prints the same lines.", "quantifier": "all programs of the modelled language, all inputs and operators, all amounts of fuel", "why_tests_cant": "Whether an earlier result is still right depends on every assignment, declaration, call and loop between the two computations.", "anchors": ["crates/logicaffeine_compile/src/optimize/gvn.rs: cse_stmts, cse_block, compute_key, CseState, rewrite_expr, cse_expr_cross_stmt, invalidate_block_writes", "crates/logicaffeine_compile/src/optimize/mod.rs: calls of gvn"]}
{"id": "C109", "title": "Evaluating calls at compile time does not change what a program does", "statement": "A program in which calls of functions with literal arguments have been replaced by the values found at compile time ends as the original does, with the same error if any, and prints the same lines.", "quantifier": "all programs of the modelled language that end, all inputs and operators", "why_tests_cant": "The compile-time evaluator is a second interpreter with its own variables, limits and arithmetic; it must agree with the run-time one on every function, recursion and loop.", "anchors": ["crates/logicaffeine_compile/src/optimize/ctfe.rs: ctfe_stmts, is_pure_stmt, eval_expr, eval_binop, eval_block, eval_stmt, try_ctfe_expr, ctfe_expr, ctfe_stmt"]}
{"id": "C110", "title": "Inlining one-expression functions does not change what a program does", "statement": "A program in which calls of functions that only return an expression have been replaced by that expression, with the arguments in place of the parameters, ends as the original does, with the same error if any, and prints the same lines.", "quantifier": "all programs of the modelled language that end, all inputs and operators", "why_tests_cant": "Names of the body and of the place of the call can clash, and the function may be defined anywhere and more than once.", "anchors": ["crates/logicaffeine_compile/src/optimize/inline_tiny.rs: inline_tiny_fns, body_inlinable, arg_atomic, subst, Inliner::rewrite_expr, rewrite_stmt"]}
{"id": "C111", "title": "Quantities keep their exact size and dimension through every computation", "statement": "A computation on physical quantities (making, converting, adding, subtracting, multiplying, dividing, scaling, comparing) yields exactly the size and dimension that the arithmetic of the numbers and units gives, is refused exactly when dimensions do not match or a divisor is zero, and is shown as exactly the right number of a unit of its dimension; conversion there and back changes nothing; the automatic choice of a unit is exact and the most readable.", "quantifier": "all expressions over quantities, all exact numbers, all units of the catalogue and any other unit with a scale other than zero, all ladders of units", "why_tests_cant": "Magnitudes and exponents are unbounded in number and size; exactness, cancellation of conversions and refusal of mismatches have to hold for every combination of units and every depth of expression.", "anchors": ["crates/logicaffeine_base/src/dimension.rs: Exp::new, add, sub, neg, scale, div_int, Dimension::mul, div, recip, powi, nth_root", "crates/logicaffeine_base/src/quantity.rs: Unit, Quantity::of, in_unit, add, sub, mul, div, in_best_unit, units, units::by_name", "crates/logicaffeine_compile/src/semantics/arith.rs: quantity_binop", "crates/logicaffeine_compile/src/semantics/compare.rs: ordering of quantities", "crates/logicaffeine_compile/src/semantics/builtins.rs: quantity, convert", "crates/logicaffeine_compile/src/interpreter.rs: QuantityValue::display"]}
{"id": "C112", "title": "Identifiers are written and read as the standard spells them", "statement": "A UUID is written as its canonical lower-case text, by every build the same one; a text is read exactly if it is an accepted spelling (canonical, thirty-two digits, braced or after urn:uuid:), as the identifier it spells; reading a packed run is reading each record; making an identifier of a version keeps every given byte but the version and variant bits, its fields can be read back, and identifiers of versions 6 and 7 sort by time.", "quantifier": "all identifiers, all texts, all packed runs, all timestamps, clock sequences, nodes, random bytes and digests, portable and vector builds", "why_tests_cant": "There are 2^128 identifiers and the two builds share no code; a lane or mask wrong for one character at one position would show only on texts with that character there.", "anchors": ["crates/logicaffeine_base/src/uuid.rs: Uuid::parse, parse_canonical, parse_many, HEX_DECODE, hex_val, encode_canonical, encode_canonical_scalar, x86_hex::encode_canonical, nibbles, hex_ok, decode_core, parse_hyphenated, parse_batch, encode_many, stamp, new_v1, new_v3, new_v4, new_v5, new_v6, new_v7, new_v8, version, variant"]}
{"id": "C113", "title": "A recursive function the kernel accepts calls itself on smaller arguments only", "statement": "In every run of a term the kernel accepts, each call that a recursive function makes to itself is on a part of the value it was called on, so that chains of such calls are bounded by the size of that value and no accepted term proves the false by running forever.", "quantifier": "all terms, all declarations of inductive types, all runs of any length", "why_tests_cant": "Whether an argument is a part depends on every binder, shadowing and match between the function and the call; an unbounded set of programs has to be refused.", "anchors": ["crates/logicaffeine_kernel/src/termination.rs: check_termination, check_termination_mutual, extract_structural_param, enter_binder, check_guarded, verify_structural_arg_smaller, check_match_cases_guarded, count_pi_params, extract_lambda_params", "crates/logicaffeine_kernel/src/type_checker.rs: infer_type (Match, Fix, MutualFix), infer_fix_type_structurally, compute_case_type", "crates/logicaffeine_kernel/src/reduction.rs: extract_constructor, count_type_params"]}
{"id": "C114", "title": "A second kernel checks every proof again, and the cross-check says whether both accept it", "statement": "The guard of the second kernel accepts the same recursive functions as that of the first; the cross-check reports agreement exactly on terms that both kernels accept with the same type; and no closed proof of the false passes it.", "quantifier": "all terms, all declarations, all scopes", "why_tests_cant": "Two implementations on different representations have to agree on every term; a shared mistake shows on no test that compares them.", "anchors": ["crates/logicaffeine_kernel/src/recheck.rs: guard, guard_match_cases, locate_struct, check_terminates, level_of, infer, infer_fix, fix_type, infer_match, effective_motive, case_type, check_case, check, recheck, double_check", "crates/logicaffeine_kernel/src/termination.rs: check_termination"]}
{"id": "C115", "title": "Declarations and definitions keep a session consistent", "statement": "The check of a constructor accepts exactly the fields in which the declared types occur strictly positively; a definition is recorded with a type of its body; a refused command leaves the session as it was; and no session comes to a proof of the false.", "quantifier": "all blocks of types, all constructor types, all sequences of commands from all sessions", "why_tests_cant": "A session is a sequence of commands of any length, each of which changes what the later ones mean; soundness speaks of all of them.", "anchors": ["crates/logicaffeine_kernel/src/positivity.rs: check_positivity, check_positivity_mutual, check_strictly_positive, is_recursive_arg, occurs_in", "crates/logicaffeine_kernel/src/type_checker.rs: check_constructor_universes, result_sort_universe", "crates/logicaffeine_kernel/src/context.rs: add_definition, add_inductive, add_constructor, add_constructor_checked, get_global", "crates/logicaffeine_kernel/src/interface/repl.rs: Repl::execute"]}
{"id": "C116", "title": "Breaking the symmetry of a counting search does not change the count", "statement": "A counting search that the compiler cuts in half, because its first choices mirror each other, or does for one value only, because the values can be exchanged, prints what it printed before; the certificate the compiler asks for holds for every width; and the compiler does not fail on any program.", "quantifier": "all programs, all board sizes, all numbers of values, all states and amounts of fuel", "why_tests_cant": "The compiler recognises a shape and trusts that the search of that shape is symmetric; whether it is depends on every board size, and the certificate is tested on at most sixteen columns.", "anchors": ["crates/logicaffeine_compile/src/optimize/symmetry.rs: break_symmetry_stmts, is_reflection_search, recognize_entry, rewrite_entry, match_bit_loop, match_range_loop, classify_state_arg, value_search_val_pos, match_value_search_loop, recognize_value_entry, rewrite_value_entry, param_used_only_in_equality", "crates/logicaffeine_kernel/src/bitvector.rs: rev_n, check_reflection_identities"]}
{"id": "C117", "title": "Closed forms leave what the loop or the recursion left", "statement": "A counting loop that the compiler replaces by a formula, or whose remainders it puts off, leaves the same variables, prints the same lines and fails in the same cases as the loop; and a recursive function that it replaces by a formula returns for every number what it returned.", "quantifier": "all programs, all starting values and limits, all arguments of the functions, all states and amounts of fuel", "why_tests_cant": "The formula stands for every number of rounds and every argument at once, and the initial values are found by looking back over arbitrary statements; a test runs a loop with a few limits.", "anchors": ["crates/logicaffeine_compile/src/optimize/closed_form.rs: closed_form_stmts, closed_form_block, try_replace_with_closed_form, try_extract_candidate, direct_affine_form, recursive_solved_form, extract_while_limit, find_init_value, build_formula, try_defer_modulus, solve_affine_recursions, affine_of, base_and_wrap, wrap_as_affine_of_self, guarded_closed_body"]}
{"id": "C118", "title": "Counting the last level of a search at once gives the same count", "statement": "A recursive search over the bits of a set whose last level the compiler replaces by a count of the bits returns, for every level, limit and set, what it returned before, and prints the same lines.", "quantifier": "all functions the pass recognises, all levels, limits and sets, all states and amounts of fuel", "why_tests_cant": "The test for the last level is put into arbitrary functions that look like a search; whether the call in the loop really is a call at the limit depends on the arguments of every call, and a test counts the solutions of a few boards.", "anchors": ["crates/logicaffeine_compile/src/optimize/popcount_leaf.rs: popcount_leaf_stmts, try_rewrite_body, match_base_case, match_loop_x, match_loop_body, is_self_step_call, is_k_plus_one, build_fast_path, block_has_count_ones", "crates/logicaffeine_compile/src/semantics/builtins.rs: CountOnes"]}
{"id": "C119", "title": "The translation validator encodes what the interpreter does", "statement": "The terms the validator builds from a program stand for the values the interpreter prints and for whether it fails; it reports agreement on every program it encodes faithfully; and when it reports agreement, what the interpreter printed is what the terms stand for.", "quantifier": "all straight-line programs over integers and truth values, all runs of the interpreter, all solvers that prove only what is true", "why_tests_cant": "The validator exists to be trusted on programs nobody tested; an encoding that differs from the interpreter for some values makes it prove wrong things equal.", "anchors": ["crates/logicaffeine_tv/src/symexec.rs: execute, exec_block, exec_stmt, eval, apply_binop", "crates/logicaffeine_tv/src/lib.rs: check_encoder_sound, check_against_interp, compare_outputs, parse_expected", "crates/logicaffeine_tv/src/verdict.rs: SoundnessReport"]}
{"id": "C120", "title": "Cheaper divisions and JIT operations compute what the interpreter computes", "statement": "Dividing by a literal, or taking a remainder by it, gives the same result or error in the virtual machine as in the interpreter, also when the compiler replaced it by a shift, a mask or a multiplication. An integer operation of the JIT gives the interpreter's result, or leaves to the interpreter exactly when that result is an error or no 64-bit integer; and the specifications given to the solver say what the operations do.", "quantifier": "all dividends, all 64-bit literal divisors, all sound facts about the dividend; all pairs of 64-bit words for every operation", "why_tests_cant": "The replacement constants differ for every divisor and the failing dividends, if any, are a few of 2^64; tests sample both.", "anchors": ["crates/logicaffeine_compile/src/vm/compiler.rs: divpow2_shift, modpow2_mask, magic_div_const, magic_u64_gen, magic_eval", "crates/logicaffeine_compile/src/vm/machine.rs: DivPow2, MagicDivU", "crates/logicaffeine_compile/src/optimize/abstract_interp.rs: expr_scalar, expr_proven_nonneg", "crates/logicaffeine_forge/src/jit.rs: reference_eval, magic_eval", "crates/logicaffeine_synth/src/spec.rs: no_overflow, all_specs"]}
{"id": "C121", "title": "Copy propagation in the JIT does not change what a program computes", "statement": "After the JIT redirects reads to copies, constants and values it already has, and removes instructions nothing reads, a compiled program that returned a word returns the same word and leaves the same in every slot that is not scratch; and what it now returns it returned before, unless it left to the interpreter.", "quantifier": "all programs of integer operations, moves, jumps and branches, all frames, any amount of fuel, any choice of scratch slots", "why_tests_cant": "Whether a remembered value is stale depends on the order of writes along every path; tests compile a few loops.", "anchors": ["crates/logicaffeine_jit/src/lib.rs: copy_propagate, micro_pure_value_key, micro_reads_mut, micro_read_slots, micro_defs, micro_target_const", "crates/logicaffeine_forge/src/jit.rs: reference_eval"]}
{"id": "C122", "title": "A comparison fused with the jump after it jumps where the two do", "statement": "When the JIT turns a comparison and the conditional jump on its result into one branch, the branch goes where the comparison and the jump would have gone, for integers and for floats, and nothing else changes but the slot of the comparison.", "quantifier": "all six comparisons, both kinds of jump, all words, all bit patterns of floats", "why_tests_cant": "Wrong only for operands that do not compare, in a compiled loop, under one of the two kinds of jump; tests of comparisons use numbers.", "anchors": ["crates/logicaffeine_jit/src/lib.rs: fuse_cmp_branch, cmp_of, translate_op", "crates/logicaffeine_forge/src/jit.rs: Cmp, Cmp::negated, BranchF, reference_eval", "crates/logicaffeine_compile/src/vm/compiler.rs: compile_short_circuit"]}
