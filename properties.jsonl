{"id": "C01", "title": "Decimal arithmetic is exact, rounded once, and bounded", "statement": "For any two contract decimals a and b, a+b, a-b, a*b and a/b either return the exact rational result rounded once toward minus infinity to 30 decimal places and capped at 10^29, or raise (result not above -10^30, or b = 0). In particular the 60-digit intermediate context rounding never changes the answer.", "quantifier": "all pairs of contract decimals", "why_tests_cant": "the domain has about 10^59 values per operand; double rounding errors only show on rare operand pairs", "anchors": ["src/contracting/stdlib/bridge/decimal.py: ContractingDecimal.__add__/__sub__/__mul__/__truediv__, fix_precision, CONTEXT"]}
{"id": "C02", "title": "Every contract decimal is a canonical 30-place value in (-10^30, 10^29]", "statement": "Whatever finite number or numeric string a contract decimal is built from, the construction either raises or yields a multiple of 10^-30 strictly above -10^30 and at most 10^29; re-normalising it changes nothing. The representation is unique, with exactly two exceptions: zero has the forms 0 and -0, and the cap has the forms 100000000000000000000000000000 and 1E+29 (unrestricted uniqueness is refuted: C02_unique_refuted).", "quantifier": "all finite decimals and all strings given to decimal(...)", "why_tests_cant": "unbounded inputs (any digit count and exponent)", "anchors": ["src/contracting/stdlib/bridge/decimal.py: fix_precision, ContractingDecimal.__init__"]}
{"id": "C03", "title": "Decimals survive printing and re-reading", "statement": "decimal(str(x)) == x for every contract decimal x, in the plain, scientific and engineering notations the library prints, so storing, hashing-by-string and Hash reads (which re-parse str(value)) never change an amount.", "quantifier": "all contract decimals, both notations", "why_tests_cant": "10^59 values; notation switches at several exponents", "anchors": ["src/contracting/stdlib/bridge/decimal.py: __str__, __init__, neg_sci_not", "src/contracting/storage/orm.py: Hash._get", "src/contracting/storage/encoder.py: Encoder.default"]}
{"id": "C04", "title": "Token transfers conserve the total", "statement": "Subtracting an amount from one decimal balance and adding it to another leaves the sum of the two balances unchanged, whenever no operation raises and the credited balance does not hit the 10^29 cap.", "quantifier": "all balances and amounts, any sequence of transfers", "why_tests_cant": "any pair of amounts at any scale, and sequences of any length", "anchors": ["src/contracting/stdlib/bridge/decimal.py: __sub__, __add__, fix_precision"]}
{"id": "C05", "title": "Decimal comparisons agree with numeric order", "statement": "<, <=, ==, >=, > on contract decimals are exactly the numeric order, and comparing with an integer compares with that integer clamped at 10^29 (raising below -10^30). Truthiness is \"strictly positive\".", "quantifier": "all pairs of decimals / integers", "why_tests_cant": "infinite domain; the clamped comparison with huge integers is an edge case no sampled test hits", "anchors": ["src/contracting/stdlib/bridge/decimal.py: __eq__/__lt__/__le__/__gt__/__ge__/__bool__/_get_other"]}
{"id": "C06", "title": "How number texts become decimals", "statement": "Every text [sign]digits[.digits][exponent] given to decimal(...) is read at its numeric value, rounded once, when it has no exponent, a capital E, or an e not followed by '-'. With 'e-': it is read at its value if unsigned with one digit before the point and a nonzero exponent (as Python prints small non-negative floats) or if the mantissa exceeds 9. All other 'e-' texts are misread in exactly this way: a signed mantissa not above 9 raises unless the exponent is 0; exponent 0 drops the point; an unsigned mantissa not above 9 with k digits before the point is read k-1 places too small. (That every 'e-' text is read at its value is refuted: C06_refuted.)", "quantifier": "all signs, digit strings, fractions and exponents", "why_tests_cant": "every digit string and exponent", "anchors": ["src/contracting/stdlib/bridge/decimal.py: neg_sci_not, ContractingDecimal.__init__"]}
{"id": "C07", "title": "Equal decimals are stored as the same bytes", "statement": "Two contract decimals have the same stored encoding exactly when they compare equal and are not zeros of opposite sign, so replicas that computed the same nonzero balance store identical bytes. (decimal(1)-decimal(1) is -0 and is stored differently from 0: C07_refuted.)", "quantifier": "all pairs of equal decimals, however computed", "why_tests_cant": "depends on the arithmetic path that produced the value", "anchors": ["src/contracting/storage/encoder.py: Encoder.default, encode", "src/contracting/stdlib/bridge/decimal.py: fix_precision"]}
{"id": "C08", "title": "Stored values read back unchanged", "statement": "For every storable value (None, booleans, integers of any size, strings, bytes, decimals, datetimes, timedeltas, floats, and lists / string-keyed dicts of these without reserved tag keys) decode(encode(v)) == v, at the level of the JSON text actually written.", "quantifier": "all storable values, any nesting depth", "why_tests_cant": "unbounded nesting, all Unicode strings, integers of any size", "anchors": ["src/contracting/storage/encoder.py: encode, decode, Encoder.default, as_object, encode_int, encode_ints_in_dict"]}
{"id": "C09", "title": "Distinct storable values have distinct encodings", "statement": "encode is injective on storable values, so two different states never share stored bytes.", "quantifier": "all pairs of storable values", "why_tests_cant": "pairs from an infinite domain", "anchors": ["src/contracting/storage/encoder.py: encode"]}
{"id": "C10", "title": "Integers outside 64 bits are always tagged", "statement": "In the stored text of any storable value, an integer outside the open interval (-2^63, 2^63-1) is written as {\"__big_int__\": \"...\"}, unless it is in a list stored directly or in a list directly inside another list (at any depth below): the text contains only 64-bit integers exactly when all integers in such lists are 64-bit. (That all are tagged is refuted: C10_refuted.)", "quantifier": "all values containing integers at any position", "why_tests_cant": "position in arbitrarily nested structures", "anchors": ["src/contracting/storage/encoder.py: encode, encode_int, encode_ints_in_dict"]}
{"id": "C11", "title": "Decoding never turns plain data into typed objects", "statement": "JSON text without reserved member names decodes, without exception, to plain data. A dict with string keys and storable values comes back as a dict with the same keys in the same order and equal values if none of its keys is a reserved tag, and never comes back as a dict if one of them is (it becomes a typed object or reading raises: C11_refuted).", "quantifier": "all dict values", "why_tests_cant": "all possible user-controlled key names", "anchors": ["src/contracting/storage/encoder.py: as_object"]}
{"id": "C12", "title": "When two entries share a state key", "statement": "Two accepted Hash indexes get the same state key exactly when they belong to the same contract (names without '.') and the same Hash (names without ':') and their components have the same texts str(), component by component, the empty tuple counting as one empty text. So tuples of strings never collide, Variables never share a key with each other or with a Hash entry; but h[1] and h['1'] are one entry, and so are h[()] and h[''] (that different objects always get different keys is refuted: C12_refuted).", "quantifier": "all contracts, names and index tuples accepted by the validation", "why_tests_cant": "all strings of any length", "anchors": ["src/contracting/storage/orm.py: Hash._validate_key, Hash._set, Hash._get", "src/contracting/storage/driver.py: make_key"]}
{"id": "C13", "title": "When two keys share a disk location", "statement": "Two state keys of contracts, made of parts without '.' and ':', are stored in the same disk location exactly when the contract is the same and the sequence of non-empty pieces between ':' and '/' after it is the same; when the locations differ, committing a write or deletion of one changes neither the committed value nor the block stamp of the other. In particular keys with non-empty parts without '/' never collide; balances['a/b'] and balances['a','b'] do (C13_refuted).", "quantifier": "all pairs of state keys", "why_tests_cant": "all strings, including separators and empty components", "anchors": ["src/contracting/storage/driver.py: Driver.__parse_key, __filename_to_path", "src/contracting/storage/hdf5.py: set, get_attr"]}
{"id": "C14", "title": "Hash index validation enforces its limits", "statement": "A Hash accepts an index exactly when it is one object, or a tuple of at most 16 objects none of which is a slice, no component's text contains '.' or ':', and the texts with separators are at most 1024 characters long; a rejected index leaves state and meter untouched. (A single slice h[1:2] is accepted, under the text slice(1, 2, None): C14_refuted.)", "quantifier": "all index values", "why_tests_cant": "all strings/tuples", "anchors": ["src/contracting/storage/orm.py: Hash._validate_key"]}
{"id": "C15", "title": "A contract only writes its own state", "statement": "Variables and Hashes declared by a contract write (and clear) only keys under that contract's name, and reads and listings write nothing. Those keys are stored in the file named by the contract name up to its first '.' or ':', so for names without them in the contract's own file; two different contracts share a key only if one name continues the other with a '.'. (The submission rules allow con_a:b, which is stored in con_a's file: C15_refuted.)", "quantifier": "all contracts, declarations and index values", "why_tests_cant": "all programs", "anchors": ["src/contracting/storage/orm.py: Datum, Variable.set, Hash.__setitem__", "src/contracting/compilation/compiler.py: visit_Assign", "src/contracting/compilation/linter.py: visit_Assign"]}
{"id": "C16", "title": "Read your writes", "statement": "On a driver that uses its cache: after an accepted set(k, v) with v not None, get(k) returns v (a float as decimal) in every state, through any further calls, until k is written again or uncommitted changes are discarded. After delete(k), get(k) still returns the committed value until the next commit or hard_apply, and None from then on. A driver that bypasses the cache always reads what is committed. (Immediate visibility of deletions, and of writes when bypassing, is refuted: C16_refuted.)", "quantifier": "all driver states, keys and values", "why_tests_cant": "all histories", "anchors": ["src/contracting/storage/driver.py: Driver.set, find, get, delete"]}
{"id": "C17", "title": "The layered driver behaves like a simple two-level map", "statement": "For every history of set/delete/get/items/commit/hard_apply/rollback/flush_cache calls and cache evictions over well-formed keys and storable values, every get returns exactly what a plain pair of maps (committed, uncommitted) returns when deletions show only once they are committed; for histories without deletions, exactly what the plain pair of maps returns. commit, hard_apply and get never raise, and whether set raises depends on value, key and meter only. (Immediate visibility of deletions is refuted: C17_refuted.)", "quantifier": "all histories of operations, with evictions/expiry at any point", "why_tests_cant": "unbounded histories and nondeterministic cache eviction", "anchors": ["src/contracting/storage/driver.py: Driver"]}
{"id": "C18", "title": "Commit is durable and does not change visible state", "statement": "After commit, a fresh driver opened on the same directory reads, for every key, the same value the committing driver read just before the commit (None for deleted keys).", "quantifier": "all driver states, all keys", "why_tests_cant": "all pending sets", "anchors": ["src/contracting/storage/driver.py: Driver.commit", "src/contracting/storage/hdf5.py: set_value_to_disk, get_value_from_disk"]}
{"id": "C19", "title": "rollback() discards every uncommitted change", "statement": "After rollback() with no argument every read returns the value on disk, whatever was pending or cached, and nothing remains to be committed.", "quantifier": "all driver states", "why_tests_cant": "all histories", "anchors": ["src/contracting/storage/driver.py: Driver.rollback"]}
{"id": "C20", "title": "What rollback(n) does", "statement": "rollback(n) never undoes an applied block: in every state reached through successful calls it changes nothing at all, whatever n. It acts only on deltas that a failed hard_apply left pending: it forgets exactly those with stamp >= n and puts the values their keys had before the oldest of them into the cache, nothing else. (That it undoes hard_applys with timestamp >= n is refuted: C20_refuted.)", "quantifier": "all histories of blocks", "why_tests_cant": "all histories", "anchors": ["src/contracting/storage/driver.py: Driver.rollback, hard_apply"]}
{"id": "C21", "title": "hard_apply persists exactly the pending writes with the block stamp", "statement": "After hard_apply(n) each pending key has on disk its pending value (none if deleted) and block stamp n, every other location is unchanged, nothing is left pending, and reads are unchanged for non-deleted keys.", "quantifier": "all states, stamps", "why_tests_cant": "all pending sets", "anchors": ["src/contracting/storage/driver.py: Driver.hard_apply"]}
{"id": "C22", "title": "What a listing contains", "statement": "items(prefix) / Hash.all() never raises in a reachable state, changes only the read record, and contains exactly: keys with that prefix that are cached, with the cached value; keys with that prefix that are pending and not cached, with the pending value; never a value None from memory; and of the committed state only top-level group names of the prefix's file that begin with the prefix, so no committed entry for a dotted prefix. While nothing is cached it is exactly the uncommitted entries, with the values get returns. (Agreement with get in general is refuted: C22_refuted.)", "quantifier": "all states and prefixes", "why_tests_cant": "all histories", "anchors": ["src/contracting/storage/driver.py: items, iter_from_disk", "src/contracting/storage/orm.py: Hash.all, _items, clear"]}
{"id": "C23", "title": "A rejected write changes nothing", "statement": "If set raises (unserialisable value, write cap exceeded, stamps exhausted), the driver is exactly as before; the only exception is a float that cannot be made a decimal, which leaves the driver as a read of that key would. In all cases no pending write, transaction write, event, cached, committed or visible value changes. (The read record does change for NaN: C23_refuted.)", "quantifier": "all states, keys, values, meter states", "why_tests_cant": "all meter positions", "anchors": ["src/contracting/storage/driver.py: Driver.set", "src/contracting/execution/runtime.py: deduct_write"]}
{"id": "C24", "title": "What the reported reads are", "statement": "The reads reported for a block hold, for every key accessed (read or written) since the last commit, the first value other than None that a read showed at one of these accesses, or None. For a key with a committed value this is that committed value; every key with an uncommitted write is reported. (For a key without committed value it can be a value written in the same block: C24_refuted.)", "quantifier": "all histories", "why_tests_cant": "all interleavings of reads and writes", "anchors": ["src/contracting/storage/driver.py: get, set"]}
{"id": "C25", "title": "A crash during commit leaves a recoverable prefix", "statement": "If the process dies at any point of commit(), every key's stored value is the old or the new one in write order, with at most the single key being written in between (value missing); redoing the same commit reaches the intended state.", "quantifier": "all pending sets, all crash points", "why_tests_cant": "every interruption point", "anchors": ["src/contracting/storage/driver.py: commit", "src/contracting/storage/hdf5.py: set, _write_attr_to_file, delete"]}
{"id": "C26", "title": "Cache eviction is invisible", "statement": "Expiry or eviction of any cache entry at any moment never changes the result of any read.", "quantifier": "all histories, all eviction schedules", "why_tests_cant": "time-dependent (6h TTL, 1000 entries)", "anchors": ["src/contracting/storage/driver.py: find, cache"]}
{"id": "C27", "title": "A failed transaction leaves no contract writes behind", "statement": "If execute returns status_code 1 (auto_commit off), the disk is untouched and the pending writes are exactly those before the call, plus the sender's new balance when metering, which is then the only reported write. Every other key reads as before, unless the program changed the list or dict stored under that very key in place (such a change of a cached value survives the failure: C27_refuted).", "quantifier": "all contract programs (any sequence of reads, writes, calls, events), all failure points", "why_tests_cant": "every program and every abort point", "anchors": ["src/contracting/execution/executor.py: Executor.execute"]}
{"id": "C28", "title": "Failed transactions report no effects", "statement": "A failed transaction's output has no events, and its writes contain at most the fee deduction; after any transaction no event or transaction write leaks to the next one.", "quantifier": "all programs, all failure points", "why_tests_cant": "every abort point", "anchors": ["src/contracting/execution/executor.py: Executor.execute"]}
{"id": "C29", "title": "Fees are bounded and balances never go negative", "statement": "With metering, stamps_used <= stamps, stamps_used >= min(5, stamps), and the sender's balance becomes max(0, balance - fee) where fee = stamps_used/stamp_cost: it never becomes negative and never drops by more than the fee (below the 10^29 cap).", "quantifier": "all programs, balances, stamps and costs", "why_tests_cant": "all amounts and outcomes", "anchors": ["src/contracting/execution/executor.py: Executor.execute lines 154-180"]}
{"id": "C30", "title": "Metered work is paid for and capped", "statement": "If a metered program returns normally, its accumulated cost is exactly 25 units per byte written plus the cost of its lines, at most 1000*stamps and at most 6,500,000, with less than 128 KiB written and at most 800,000 lines; the first operation that would cross a limit raises. The only exception: the line limit strikes inside library code whose try block swallows the abort (crypto.verify, Hash.all, Hash.clear); then the rest runs unmetered (C30_refuted).", "quantifier": "all programs", "why_tests_cant": "all executions", "anchors": ["src/contracting/execution/tracer.py: Tracer.add_cost, trace_func", "src/contracting/execution/runtime.py: deduct_write"]}
{"id": "C31", "title": "Metered contracts always stop", "statement": "Every metered execution, even of a program that never returns, is aborted after at most 800,000 traced lines (and 6,500,000 units of contract lines, and the stamps supplied). Two exceptions: the limit strikes inside library code whose try block swallows the abort (C31_swallowed_refuted), and the top level of the entry module, which runs before metering starts (C31_refuted, C31_load_refuted).", "quantifier": "all (possibly non-terminating) programs", "why_tests_cant": "non-termination cannot be tested", "anchors": ["src/contracting/execution/tracer.py: trace_func, cu_costs"]}
{"id": "C32", "title": "Transactions do not influence each other through runtime state", "statement": "When execute returns, the meter, write counter, seeding flag, environment, loaded modules and import restriction are as in a process just started; so, after any history of transactions that returned (or were refused as private) and left no context frame (C38), the next transaction gives exactly the output, and leaves exactly the storage, that it would in a process restarted on the same storage. Python's random state, the previous base frame and calls to host modules never matter. (When execute raised after running, its environment stays: C32_refuted.)", "quantifier": "all pairs of histories leading to the same stored state", "why_tests_cant": "all histories", "anchors": ["src/contracting/execution/executor.py: execute", "src/contracting/execution/runtime.py: Runtime.set_up, clean_up, Context"]}
{"id": "C33", "title": "No funds, no execution", "statement": "If the sender's balance times stamp_cost is below the offered stamps, contract code does not run: status 1 and no state change other than the fee.", "quantifier": "all programs and balances", "why_tests_cant": "all programs", "anchors": ["src/contracting/execution/executor.py: lines 73-93"]}
{"id": "C34", "title": "Private functions cannot be called from outside", "statement": "execute refuses any function name beginning with \"__\" before touching state (unless bypass_privates is set).", "quantifier": "all names and states", "why_tests_cant": "all strings", "anchors": ["src/contracting/execution/executor.py: line 55-56"]}
{"id": "C35", "title": "Every state change is reported in writes", "statement": "Each key whose pending value changed during a successful transaction (auto_commit off) appears in the reported writes with its new value, and each reported write is the pending value, unless the code clears a Hash that has the key, changes the object stored under that very key in place, or the submission contract writes it. All three exceptions are real (C35_refuted, C35_mutate_refuted, C35_submission_refuted).", "quantifier": "all programs", "why_tests_cant": "all programs", "anchors": ["src/contracting/execution/executor.py", "src/contracting/storage/driver.py: set, set_var", "src/contracting/storage/orm.py"]}
{"id": "C36", "title": "ctx is right at every point of every call tree", "statement": "In any tree of calls between exported functions (nesting below 1024 contracts), ctx.this is the running contract, ctx.caller the contract (or signer) that entered it, ctx.signer and ctx.entry are constant; same-contract calls leave ctx unchanged, and ctx is restored after each call.", "quantifier": "all call trees", "why_tests_cant": "all nestings incl. re-entrancy", "anchors": ["src/contracting/execution/runtime.py: Context", "src/contracting/stdlib/bridge/access.py: __export"]}
{"id": "C37", "title": "Owned contracts only run for their owner", "statement": "A call of an exported function of a contract with an owner from a contract that is not the owner raises, and its body makes no difference; a direct call by a sender who is not the owner runs none of the contract's code and fails, as long as no context frame was left over from earlier transactions (C38). (With a leftover frame, owned code runs for a stranger: C37_refuted.)", "quantifier": "all call trees and ownership assignments", "why_tests_cant": "all call paths", "anchors": ["src/contracting/stdlib/bridge/access.py: __enter__", "src/contracting/execution/executor.py: line 110"]}
{"id": "C38", "title": "The context stack is empty after every transaction", "statement": "Whatever a transaction does and wherever it fails, even if execute raises, no context frame survives it, unless an owner check refused a call made while the entry module was loading or made by a private function run with bypass_privates. Both exceptions are real (C38_refuted); a frame left by a refused call makes every later transaction of the process fail (C38_poisoned).", "quantifier": "all programs and failure points", "why_tests_cant": "all failure points", "anchors": ["src/contracting/stdlib/bridge/access.py", "src/contracting/execution/runtime.py: Context", "src/contracting/client.py: run_private_function"]}
{"id": "C39", "title": "Which identifiers an accepted contract uses", "statement": "In every accepted contract, at every place of the tree, no name and no attribute starts or ends with an underscore or is rt; a name of a Python builtin is a whitelisted one or float, and a builtin called by name is a whitelisted one. (float may be mentioned, so f = float; f('0.1') makes floats: C39_refuted.)", "quantifier": "all syntax trees", "why_tests_cant": "all programs", "anchors": ["src/contracting/compilation/linter.py: visit_Name, visit_Attribute, visit_Call", "src/contracting/compilation/whitelists.py"]}
{"id": "C40", "title": "Accepted contracts contain no forbidden syntax", "statement": "In every accepted contract no node anywhere is a class, lambda, try, with, async, await, yield, global/nonlocal, generator expression, matrix product or from-import, and no plain import names a standard module. (The Ellipsis literal, although listed, and dotted imports of standard modules are accepted: C40_refuted.)", "quantifier": "all syntax trees", "why_tests_cant": "all programs", "anchors": ["src/contracting/compilation/linter.py: generic_visit", "src/contracting/compilation/whitelists.py: ILLEGAL_AST_TYPES"]}
{"id": "C41", "title": "Accepted contracts have well-formed entry points", "statement": "An accepted contract has at least one export, at most one constructor, no decorators but a single @export or @construct per function; every ordinary argument of an exported function has an allowed type; no ordinary argument has the name of a storage declaration; function bodies contain no import or function directly. (Return annotations and keyword-only or positional-only arguments are not checked: C41_refuted.)", "quantifier": "all syntax trees", "why_tests_cant": "all programs", "anchors": ["src/contracting/compilation/linter.py: visit_FunctionDef, _final_checks"]}
{"id": "C42", "title": "What functions become when compiled", "statement": "In the compiled form of any accepted contract the functions are those of the source, in order, with the same ordinary arguments: exported ones keep their name and get the one decorator __export('<contract>'), the constructor becomes ____, every other function name gets two more underscores, so a function whose name does not start with __ carries the decorator. If the contract has no function named __export and no private function or storage declaration named export, then no function of the compiled contract is named __export and the name __export occurs nowhere but in these decorators, so it is the system's wrapper. Otherwise it need not be: an undecorated function named __export, renamed ____export, is the decorator instead (C42_refuted); an undecorated function named export is renamed __export and shadows the wrapper (C42_shadow_refuted); an undecorated function named __ becomes a constructor (C42_constructor_refuted).", "quantifier": "all syntax trees", "why_tests_cant": "all programs", "anchors": ["src/contracting/compilation/compiler.py: visit_FunctionDef, privatize"]}
{"id": "C43", "title": "No float literal survives compilation", "statement": "The compiled form of any contract contains no floating point constant: each became decimal(\"...\").", "quantifier": "all syntax trees", "why_tests_cant": "all programs", "anchors": ["src/contracting/compilation/compiler.py: visit_Num"]}
{"id": "C44", "title": "ORM declarations are bound to the declaring contract", "statement": "In the compiled form of any accepted contract each assignment of a Variable/Hash/LogEvent/Foreign* call has __x as first target and ends with contract=<this contract>, name='x', added by the compiler; the author of an own class gave neither. Every other construction of these classes stands as written in the source with the same keywords, so one that is not the value of a plain assignment can name any contract (that no construction can is refuted: C44_refuted).", "quantifier": "all syntax trees", "why_tests_cant": "all programs", "anchors": ["src/contracting/compilation/compiler.py: visit_Assign", "src/contracting/compilation/linter.py: visit_Assign"]}
{"id": "C45", "title": "Contract variables cannot collide with system keys", "statement": "No storage name declared by assignment in an accepted contract starts or ends with an underscore, so none is __code__, __compiled__, __owner__, __submitted__ or __developer__. (Constructions that are not assigned can use these keys: C45_refuted.)", "quantifier": "all syntax trees", "why_tests_cant": "all programs", "anchors": ["src/contracting/compilation/linter.py: not_system_variable", "src/contracting/storage/driver.py: CODE_KEY..DEVELOPER_KEY"]}
{"id": "C46", "title": "Timedelta arithmetic is arithmetic on total seconds", "statement": "Construction, +, -, * by an integer, comparison and the seconds/minutes/hours/days/weeks readers of timedelta agree with integer arithmetic on the total number of seconds, within the representable range.", "quantifier": "all timedeltas", "why_tests_cant": "all integers incl. negative", "anchors": ["src/contracting/stdlib/bridge/time.py: Timedelta, get_raw_seconds"]}
{"id": "C47", "title": "Datetime arithmetic is consistent", "statement": "datetime + timedelta moves the instant by exactly that many seconds (or raises outside years 1..9999), comparisons are chronological, and b + (a - b) equals a up to discarded sub-second difference.", "quantifier": "all datetimes and timedeltas", "why_tests_cant": "all dates incl. leap years", "anchors": ["src/contracting/stdlib/bridge/time.py: Datetime"]}
{"id": "C48", "title": "Randomness is a deterministic function of the block environment", "statement": "After any history of transactions that returned, random functions raise unless seed() ran in the same transaction, and every value drawn depends only on block_num, block_hash, __input_hash, AUXILIARY_SALT, the salts used and the requests since seeding. (After an execute that raised, the generator stays seeded and the next transaction draws without seed(): C48_refuted.)", "quantifier": "all histories and environments", "why_tests_cant": "global generator state from any history", "anchors": ["src/contracting/stdlib/bridge/random.py", "src/contracting/execution/executor.py: line 182"]}
{"id": "C49", "title": "Random results are in range", "statement": "getrandbits(k) returns a value in [0, 2^k) for k >= 1, and raises for k = 0.", "quantifier": "all k and generator states", "why_tests_cant": "all generator states", "anchors": ["src/contracting/stdlib/bridge/random.py: getrandbits"]}
{"id": "C50", "title": "Dynamic import only reaches deployed contracts by plain names", "statement": "importlib.import_module(name) succeeds only for names made of lowercase alphanumerics/underscore, not starting with '_', not a number, not a stdlib module, with stored code; such names contain no storage separators. What it gives is then the contract (or the module loaded before in this transaction), except when a module of that name is already imported in the host process: then it hands out the host module (C50_refuted). Deployed contracts with such names and intact code are found.", "quantifier": "all names", "why_tests_cant": "all strings", "anchors": ["src/contracting/stdlib/bridge/imports.py: import_module"]}
{"id": "C51", "title": "Contract submission rules", "statement": "A contract can be created through submit_contract only by a direct call (caller = signer), with a lowercase name of at most 64 characters, starting with con_ unless the caller is sys, and only if no contract of that name exists; a call that breaks a rule changes nothing. After an accepted submission, the compiler's output, the owner given and the caller as developer are recorded, unless the module's own top level or constructor submitted the same name meanwhile: then the outer call writes nothing and still reports success (C51_nested_refuted).", "quantifier": "all callers, names and states", "why_tests_cant": "all strings and states", "anchors": ["src/contracting/contracts/submission.s.py: submit_contract", "src/contracting/storage/contract.py: Contract.submit"]}
{"id": "C52", "title": "Deployed code is immutable", "statement": "Once a contract (name without '.' and ':') is stored, nothing that contract code does in any transaction, and no history of transactions, commits, block applications, roll-backs, cache flushes and evictions, changes what is read as its code, compiled form, owner or submission time. Assumed of the contracts that run: their storage is declared by assignment (C44, C45) and their names contain no ':'. Both assumptions are needed (C52_forged_refuted, C52_refuted).", "quantifier": "all histories of submissions", "why_tests_cant": "all histories", "anchors": ["src/contracting/storage/driver.py: set_contract", "src/contracting/storage/contract.py: submit"]}
{"id": "C53", "title": "Only the developer can hand over a contract", "statement": "change_developer succeeds only when the caller is what is read as the developer of the given name; otherwise it raises and writes nothing. When it succeeds it changes the pending developer record of that name and nothing else. (A name with ':' shares the disk location of another contract's record, so a former developer can take a contract back: C53_refuted.)", "quantifier": "all states and callers", "why_tests_cant": "all states", "anchors": ["src/contracting/contracts/submission.s.py: change_developer"]}
{"id": "C54", "title": "Emitted events match their declaration", "statement": "Every event recorded matches, argument by argument, a declaration with at most three indexed parameters: exactly the declared arguments, each of a declared type and at most 1024 bytes, split by the idx flag; it carries the contract and caller of the frame that emitted it and, when no context frame was left over (C38), the sender as signer. This holds for programs that do not change a parameter dict after building the event object; for those that do it is refuted (C54_refuted).", "quantifier": "all declarations and data", "why_tests_cant": "all dicts", "anchors": ["src/contracting/storage/orm.py: LogEvent"]}
{"id": "C55", "title": "Typed variables only hold their type", "statement": "A set of a typed Variable to a value that is neither None nor an instance of its type raises and changes nothing; any other set does what a set of an untyped Variable does. For every history of sets of storable values (C08) and other calls not writing its key, a Variable of a type other than float reads as its default or an instance of its type. (A float Variable holds decimals, a tuple reads back as a list: C55_refuted.)", "quantifier": "all values and types", "why_tests_cant": "all values", "anchors": ["src/contracting/storage/orm.py: Variable.set"]}
{"id": "C56", "title": "What key_is_valid accepts", "statement": "crypto.key_is_valid(k) is true exactly when k has 64 characters and is an integer literal in base 16 as Python's int reads it: blanks, a sign, 0x, digits with single underscores, blanks. So a key of ASCII letters other than x and digits is valid exactly when it consists of 64 hexadecimal digits; but '0x'+62 digits, signs, underscores and padding blanks are valid too (that only 64 digits are is refuted: C56_refuted).", "quantifier": "all strings", "why_tests_cant": "all strings", "anchors": ["src/contracting/stdlib/bridge/crypto.py: key_is_valid"]}
{"id": "C57", "title": "What the hash functions hash", "statement": "hashlib.sha3/sha256 hash a text of hexadecimal digit pairs (either case, blanks around the pairs) as the bytes it stands for, and any other text as its UTF-8 bytes. Two texts give the hash function the same bytes exactly when they are equal, stand for the same bytes, or one stands for the UTF-8 bytes of the other, which stands for none. (That different texts are hashed differently is refuted: 'a' and '61', 'ab' and 'AB', C57_refuted.)", "quantifier": "all pairs of strings", "why_tests_cant": "all pairs", "anchors": ["src/contracting/stdlib/bridge/hashing.py: sha3, sha256"]}
{"id": "C58", "title": "Contract method listing shows exactly the public functions", "statement": "methods_for_contract on compiled code lists exactly the functions whose name does not start with \"__\", with their argument names and annotation names.", "quantifier": "all compiled contracts", "why_tests_cant": "all programs", "anchors": ["src/contracting/compilation/parser.py: methods_for_contract"]}
{"id": "C59", "title": "run_private_function restores protection", "statement": "After a run_private_function that returned, the executor refuses every private function again; after one that raised, the protection stays off and later transactions may name private functions (C59_failure; that it is always restored is refuted: C59_refuted).", "quantifier": "all programs", "why_tests_cant": "all failure points", "anchors": ["src/contracting/client.py: run_private_function"]}
{"id": "C60", "title": "Foreign variables and hashes are read-only", "statement": "Every writing operation on a ForeignVariable or ForeignHash raises and changes nothing; reading or listing changes only the read record, and gives what the owner's own object without default gives, in particular the value the owner set. (Default values declared by the owner are not seen: C60_refuted.)", "quantifier": "all states and operations", "why_tests_cant": "all operation sequences", "anchors": ["src/contracting/storage/orm.py: ForeignVariable, ForeignHash"]}
{"id": "C61", "title": "Module imports inside contract calls are restricted to contracts", "statement": "While the function a transaction calls runs, however deep in calls and imports, an import statement fails or gives a module stored as a contract (or one already loaded in this transaction); for names without a dot no host package code runs. Two exceptions: the top level of the transaction's own module imports anything, and a dotted import runs host package code even when refused (C61_refuted).", "quantifier": "all programs", "why_tests_cant": "all programs", "anchors": ["src/contracting/execution/module.py: restricted_import, enable_restricted_imports", "src/contracting/execution/executor.py: lines 115-128"]}
{"id": "C62", "title": "execute only runs deployed contract code", "statement": "After any history of transactions that returned, a transaction that reports success and whose contract_name is not the name of an imported or importable host module ran a function of the contract stored under that name. For names of host modules this is false: execute('os', 'system', ...) calls the host function (C62_refuted).", "quantifier": "all contract and function names, states and histories", "why_tests_cant": "all names incl. names of host modules", "anchors": ["src/contracting/execution/executor.py: Executor.execute", "src/contracting/execution/module.py: DatabaseFinder"]}
{"id": "C63", "title": "The time client calls run at", "statement": "A client call is one transaction by the given signer whose environment has as now the now of the environment used (the call's, else the client's) if there is one, else the now argument, else the clock. The first call without own environment stores its time in the client's environment, so every later one runs with that first time, whatever its now argument or the clock (that calls run at their own time is refuted: C63_refuted).", "quantifier": "all histories of calls on a client", "why_tests_cant": "depends on calls made before, of any number", "anchors": ["src/contracting/client.py: _abstract_function_call"]}
{"id": "C64", "title": "quick_write and quick_read", "statement": "quick_write stores the value durably under the key the contract itself uses, quick_read returns it, and no other key changes.", "quantifier": "all storage states, names, components and values", "why_tests_cant": "all states", "anchors": ["src/contracting/client.py: quick_read, quick_write"]}
{"id": "C65", "title": "Submission time is the block time", "statement": "The submission time recorded for a contract is the value of now in the environment of the submitting transaction (the clock at process start when there is none), provided the module does not bind the name now and does not submit itself; a module that binds now is recorded with the time it says (C65_refuted).", "quantifier": "all modules, constructors, environments and states", "why_tests_cant": "all programs and environments", "anchors": ["src/contracting/storage/contract.py: Contract.submit", "src/contracting/storage/driver.py: set_contract"]}
{"id": "C66", "title": "Underscore names in compiled contracts", "statement": "In the compiled form of any accepted contract every name starting with an underscore is the export decorator (or the renamed __export of the contract), or __x for a name x that the author gave to an undecorated function or a storage declaration. Such an __x can be a name of the system: a declaration of Driver gives access to __Driver, the storage driver (C66_refuted).", "quantifier": "all syntax trees", "why_tests_cant": "all programs", "anchors": ["src/contracting/compilation/compiler.py: privatize, parse", "src/contracting/execution/module.py: DatabaseLoader.exec_module", "src/contracting/execution/executor.py: line 60-66"]}
{"id": "C67", "title": "What the variable listing shows", "statement": "variables_for_contract on the compiled form of an accepted contract lists exactly the Variables and Hashes declared, by assignment, in the nodes that come (breadth first) before any function of the source, in that order and by source name; none of a class whose name the contract has redefined. It raises AttributeError exactly when one of these nodes assigns the result of calling an attribute. (So later declarations are missing and an early import_module makes it crash: C67_refuted.)", "quantifier": "all compiled contracts", "why_tests_cant": "all programs", "anchors": ["src/contracting/compilation/parser.py: variables_for_contract"]}
{"id": "C68", "title": "What delete_contract removes", "statement": "delete_contract(name) succeeds and removes, in memory and on disk, exactly the keys that begin with the text name and are pending or cached; every other key keeps its value, except that a key g.g beginning with name is removed if the file of name has a top-level variable g that begins with name (file names below 255 characters). So a committed contract stays, and applied values of contracts whose names merely begin with name are deleted (that exactly the contract is removed is refuted: C68_refuted).", "quantifier": "all reachable storage states and names", "why_tests_cant": "every combination of committed, applied and pending values and of contract names", "anchors": ["src/contracting/storage/driver.py: Driver.delete_contract, delete_key_from_disk"]}
{"id": "C69", "title": "What get_all_contract_state returns", "statement": "get_all_contract_state succeeds, changes only the read record, and lists exactly the keys of contracts that have a group on disk (all keys with a committed value and the groups leading to them), each with the value a read gives; with nothing pending or cached its values other than None are exactly the committed state. Keys that are only pending are not listed, so with pending writes old and new state are mixed (C69_refuted).", "quantifier": "all reachable storage states", "why_tests_cant": "every combination of committed and pending values", "anchors": ["src/contracting/storage/driver.py: Driver.get_all_contract_state"]}
{"id": "C70", "title": "What get_contracts lists", "statement": "get_contracts succeeds, changes only the read record, and lists exactly the names whose code is pending or cached; contracts whose code is only on disk (all of them after a commit or restart) are not listed (C70_refuted).", "quantifier": "all reachable storage states", "why_tests_cant": "every combination of committed and pending deployments", "anchors": ["src/contracting/client.py: ContractingClient.get_contracts"]}
{"id": "C71", "title": "flush_full and flush_file erase", "statement": "After flush_full every key reads None, for this driver and for one opened later, and nothing is pending; flush_file erases the committed values of one file and of no other.", "quantifier": "all driver states and keys", "why_tests_cant": "every state", "anchors": ["src/contracting/storage/driver.py: Driver.flush_full, flush_file, flush_disk"]}
{"id": "C72", "title": "Installing the submission contract", "statement": "After flush, in any state, the storage holds exactly the given submission contract, durably. set_submission_contract installs the given text, durably, when no submission contract is readable or the present one is pending or cached; when it is only committed, the old code stays (C72_kept, C72_refuted).", "quantifier": "all storage states and sources", "why_tests_cant": "every state", "anchors": ["src/contracting/client.py: ContractingClient.flush, set_submission_contract"]}
{"id": "C73", "title": "Arguments reach the function as given, floats as decimals", "statement": "The function called by execute receives the arguments given, every float argument replaced by the decimal of the same value (rounded once; infinity becomes 10^29) and every other argument unchanged; if a float has no decimal (NaN, -inf, not above -10^30, or negative and printed with a negative exponent, which is a defect) the function never runs. A transaction with float arguments does exactly what the one with these decimals does. Floats inside lists and dicts are passed as they are (C73_refuted).", "quantifier": "all transactions, argument values, function bodies and process states", "why_tests_cant": "every float and every mixture of arguments", "anchors": ["src/contracting/execution/executor.py: lines 122-128", "src/contracting/stdlib/bridge/decimal.py: neg_sci_not"]}
{"id": "C74", "title": "crypto.verify accepts exactly correct signatures", "statement": "In a process where nacl.signing is loaded, crypto.verify(vk, msg, signature) returns True exactly when vk and signature are hexadecimal texts of 32 and 64 bytes and the Ed25519 check of the UTF-8 bytes of msg accepts; it raises exactly when vk is not a text of 32 bytes or signature is not a text of bytes, and returns False otherwise. (The module imports only nacl: if nothing else has loaded nacl.signing, every call raises, C74_refuted.)", "quantifier": "all strings, any signature scheme", "why_tests_cant": "all strings", "anchors": ["src/contracting/stdlib/bridge/crypto.py: verify"]}
{"id": "C75", "title": "Contract code sees the environment of its transaction", "statement": "After any history of transactions that returned, every read of the environment (now, block_num, block_hash, ...) by contract code, at any depth of calls and imports, at load or in a function, gives what the environment passed to execute holds under that name, None if nothing. (After an execute that raised, the next transaction still sees the old values: C75_refuted.)", "quantifier": "all programs, transactions and histories", "why_tests_cant": "depends on what earlier transactions of the process left", "anchors": ["src/contracting/execution/executor.py: execute", "src/contracting/execution/runtime.py: rt", "src/contracting/execution/module.py: DatabaseLoader"]}
{"id": "C76", "title": "Exactly which contracts the compiler accepts", "statement": "A contract is accepted, under any name, exactly if: names and attributes are public and not rt; names of builtins are whitelisted (or float, not called); no own storage class is assigned a second name; assigned calls call a name or an attribute; assigned storage constructions have a name as first target, no tuple target, and for own classes no contract= or name=; function bodies contain no import or function directly; each function has no decorator, @export or @construct; exported functions have allowed types on all ordinary arguments and, with a return annotation, at least one argument; some function is exported; at most one is a constructor; no ordinary argument has the name of declared storage; no standard module is imported by its own name; no from-import and no forbidden node anywhere.", "quantifier": "all syntax trees, all sets of builtins and modules", "why_tests_cant": "all programs, in both directions", "anchors": ["src/contracting/compilation/linter.py: Linter.check", "src/contracting/compilation/compiler.py: ContractingCompiler.parse"]}
{"id": "C77", "title": "Signs, whole-number division, remainder and int of decimals", "statement": "For contract decimals: -x and abs(x) are exact, capped at 10^29 like every result (and raise when not above -10^30); +x is x; int(x) is x with its fraction dropped toward zero; x // y is the quotient with its fraction dropped toward zero (not rounded down as for ints), capped like every result; x % y never raises for nonzero y and is exactly x - y*trunc(x/y), smaller than y in size and with the sign of x. // and % by zero raise.", "quantifier": "every pair of contract decimals", "why_tests_cant": "The 60-digit context, the shortcut for operands of very different size and the quotient bound depend on exponents and lengths of both operands; tests pick a handful of the 10^60 values of each.", "anchors": ["src/contracting/stdlib/bridge/decimal.py:ContractingDecimal.__neg__", "src/contracting/stdlib/bridge/decimal.py:ContractingDecimal.__abs__", "src/contracting/stdlib/bridge/decimal.py:ContractingDecimal.__mod__", "src/contracting/stdlib/bridge/decimal.py:ContractingDecimal.__floordiv__", "src/contracting/stdlib/bridge/decimal.py:ContractingDecimal.__int__"]}
{"id": "C78", "title": "round of decimals", "statement": "round(x) is the integer nearest to x, the even one of two equally near. round(x, n) rounds down to a multiple of 10^-n (-1.21 to one place is -1.3), and succeeds exactly when -100 <= n <= 159 and the result has at most 60 digits; its result is a plain Decimal that can lie outside the range of contract decimals (round(decimal('-1'), -100) is -1E+100).", "quantifier": "every contract decimal and every digit count", "why_tests_cant": "Ties, signs and the digit limit meet only at particular operands; which rounding applies depends on the presence of the second argument.", "anchors": ["src/contracting/stdlib/bridge/decimal.py:ContractingDecimal.__round__"]}
{"id": "C79", "title": "What enforce_interface checks", "statement": "importlib.enforce_interface(m, items) is True exactly if for each item the module has an attribute of its name that is: for Func, a function of that name, looked for inside its wrapper, with exactly the given parameters in that order; for Var, storage of exactly that class; or for either, any object that is neither storage nor a function. It raises AttributeError exactly if, before an unmet item, a Func item meets storage. For a loaded contract made of imports, functions with ordinary parameters and storage declarations with different names, and items whose names are neither predefined nor imported, it is True exactly if the source has the exported functions, private functions and declarations asked for. Predefined and imported names satisfy any item (C79_refuted).", "quantifier": "every module namespace, every interface list, every accepted contract of that form", "why_tests_cant": "The answer depends on the combination of contract and interface; tests check a few contracts, not what is accepted wrongly.", "anchors": ["src/contracting/stdlib/bridge/imports.py:enforce_interface", "src/contracting/stdlib/bridge/imports.py:Func", "src/contracting/stdlib/bridge/imports.py:Var", "src/contracting/execution/module.py:DatabaseLoader.exec_module"]}
{"id": "C80", "title": "Calling contracts through the client", "statement": "client.get_contract(name) on a deployed contract gives a callable for each exported function, and each callable whose name does not start with __ belongs to an exported function and has its parameters; it raises TypeError exactly if some function has a parameter named signer, contract_name, executor, func or return_full_output. A call of a callable is exactly one transaction of that contract and function, by the signer given or else the client's, and passes each keyword given and None for every other parameter; its outcome is that of the transaction. So default values in the contract never apply through the client (C80_defaults, C80_refuted), and a parameter named environment, stamps, metering or now cannot be passed (C80_swallowed).", "quantifier": "all accepted contracts, all process states, all keyword combinations, all function bodies and default values", "why_tests_cant": "The client passes on what the caller did not give; tests call functions with all their arguments.", "anchors": ["src/contracting/client.py:AbstractContract.__init__", "src/contracting/client.py:AbstractContract._abstract_function_call", "src/contracting/client.py:ContractingClient.get_contract"]}
{"id": "C81", "title": "How decimals are printed", "statement": "str(x) of a contract decimal is a minus sign if x is negative (or the negative zero) followed by the magnitude: in plain notation (an integer without leading zeros and, if needed, a point and a fraction not ending in 0), except that nonzero numbers below a millionth and multiples of ten from 1000 on are written as a plain number from 1 to below 1000, E and a signed nonzero multiple of three (1000 is 1E+3, 1230 is 1.23E+3). The one further exception is the object produced by clamping a larger value, which prints 10^29 in plain digits. Hence whole decimals that are below 1000 in size or not divisible by ten print like the int; h[decimal('1000')] and h[1000] are different entries although h[decimal('100')] and h[100] are the same, and a decimal whose text has a point is refused as an index (C81_refuted).", "quantifier": "every contract decimal", "why_tests_cant": "Which notation is used depends on the digits, trailing zeros and size together; tests print a few numbers.", "anchors": ["src/contracting/stdlib/bridge/decimal.py:ContractingDecimal.__str__", "src/contracting/stdlib/bridge/decimal.py:fix_precision", "src/contracting/storage/orm.py:Hash._validate_key"]}
{"id": "C82", "title": "Using one compiler several times", "statement": "For a ContractingCompiler object used any number of times: whether a source is accepted (with linting), and the exception if not, does not depend on earlier uses; as long as nothing was refused before (texts that are not Python do not count), the result is that of a new compiler; in general the result is that of a new compiler that also treats as private the names left by sources refused since the last success, and these are names of their undecorated functions and storage (all of them if the source was refused for violations), so a contract using none of these names is compiled correctly. Without linting, a compiler that last linted a source with violations refuses everything. (The exceptions are real: after a refused source with a function key, a correct contract with a parameter key is compiled to code that uses an undefined __key: C82_refuted. client.compile uses one compiler for all clients of the process; submitted contracts get a new one each.)", "quantifier": "all histories of uses with and without linting, all syntax trees", "why_tests_cant": "The object carries its collected names and alerts from one use to the next; tests use a new compiler or only accepted sources.", "anchors": ["src/contracting/compilation/compiler.py:ContractingCompiler.parse", "src/contracting/compilation/compiler.py:ContractingCompiler.visit_FunctionDef", "src/contracting/client.py:ContractingClient.compile"]}
{"id": "C83", "title": "Which storage names are attributes of the client's contract object", "statement": "For a contract obtained from the client, `contract.item` (item not an attribute of the object itself) is a Variable for contract.item if that key has a pending or cached value other than None, its plain value if the name starts with `__`, a Hash if the key is not live but some key below `contract.item:` is, and raises AttributeError otherwise; the access changes nothing but the driver's record of reads. In particular a value which is only on disk, e.g. any value right after a commit, is not an attribute although the driver still reads it.", "quantifier": "Every readable directory of plain keys, every history of driver calls, every contract and attribute name.", "why_tests_cant": "Whether the attribute resolves depends on the whole history of writes, commits, rollbacks and evictions before the access; tests sample a few histories right after a write.", "anchors": ["src/contracting/client.py:AbstractContract.__getattr__", "src/contracting/client.py:AbstractContract.keys", "src/contracting/storage/driver.py:Driver.items", "src/contracting/storage/driver.py:Driver.values"]}
{"id": "C84", "title": "Concurrent writes to the state files behave as if made one at a time", "statement": "When several threads of one process call hdf5.set and hdf5.delete, then for every schedule of their lock operations, attribute operations and lock time-outs, and wherever it is cut off (a crash): every place no call is in the middle of writing holds exactly what the calls that have returned leave there when run alone, one after the other, in the order in which they returned; calls that raised TimeoutError have no effect; two threads are never inside calls on the same file; some thread can always go on, and a thread that has the lock returns after at most six operations of its own. Readers take no lock: at a place being written they see the old value, the new one, or None. So a reader can see None although there always was a value, and two commits of several keys can mix.", "quantifier": "Every initial disk, every finite set of threads with any calls on any files, every interleaving and every cut-off point.", "why_tests_cant": "Interleavings of lock, attribute and time-out steps of any number of threads are unbounded; tests see the few schedules the machine happens to choose.", "anchors": ["src/contracting/storage/hdf5.py:file_locks", "src/contracting/storage/hdf5.py:set", "src/contracting/storage/hdf5.py:delete", "src/contracting/storage/hdf5.py:_write_attr_to_file", "src/contracting/storage/hdf5.py:get_attr"]}
{"id": "C85", "title": "client.submit deploys what it was given, or raises and leaves nothing", "statement": "If client.submit(source, name=..., owner=..., constructor_args=..., signer=...) returns, then the name is lowercase, at most 64 characters and starts with con_ unless the signer is 'sys'; the source compiled; and the state pending under the contract's name is exactly the compiled source, its compiled form, the owner given, the signer (the client's if none is given) as developer, and as time the client's environment's now, else the clock (or the time the module's own run returned). Without a name it raises AssertionError and nothing happens. If an unmetered submit raises, disk and pending writes are as before.", "quantifier": "Every state, client, signer, name without ':', source, constructor whose code only uses its own storage API, environment and clock.", "why_tests_cant": "What is stored depends on the state, the constructor program, the stack of callers and the fee deduction afterwards; tests submit a few contracts.", "anchors": ["src/contracting/client.py:ContractingClient.submit", "src/contracting/client.py:AbstractContract._abstract_function_call", "src/contracting/contracts/submission.s.py:submit_contract", "src/contracting/stdlib/bridge/orm.py", "src/contracting/storage/contract.py:Contract.submit"]}
{"id": "C86", "title": "Nodes that run the same transactions and blocks agree", "statement": "Two nodes that start on the same disk and run the same sequence of execute, hard_apply, commit, rollback and flush_cache report exactly the same for every step (results, stamps, writes, reads, events, exceptions) and end with the same disk and pending writes, whatever cache entries each of them loses to expiry or eviction and whenever each is restarted with nothing pending; provided contract code makes no listings (Hash.all, Hash.clear) and no in-place changes of stored lists or dicts, execute returns with an empty context stack, and the stored values are ones that read back as the same value, under plain keys. Without these provisos it is false.", "quantifier": "all initial disks, all sequences of transactions and blocks with any contract code within the provisos, all schedules of evictions and restarts of both nodes", "why_tests_cant": "the state that differs between nodes (which entries are still cached, which process was restarted) is invisible to any single test, and agreement is a statement about all pairs of histories", "anchors": ["src/contracting/storage/driver.py: Driver.find, hard_apply, commit, cache", "src/contracting/execution/executor.py: Executor.execute", "src/contracting/storage/orm.py: Hash.all"]}
{"id": "C87", "title": "Dates survive being written and read as text", "statement": "str() of two datetime objects orders as strings exactly as the dates order in time, so equal texts mean equal instants and dates used as hash keys never collide; datetime.strptime(str(t), fmt) returns t for the matching one of the formats '%Y-%m-%d %H:%M:%S' (no microseconds) and '%Y-%m-%d %H:%M:%S.%f' (microseconds), and ValueError with the other one. For every format built from ordinary characters, white space, %% and the numeric directives %Y %m %d %H %M %S %f, none twice, strptime of what the format writes for a date gives that date back, with unmentioned fields at their defaults. For formats in which it is clear where every number ends, strptime returns a date exactly for the texts that say that date. Whatever strptime returns is a real date whose fields are the numbers in the text; a rejected call raises ValueError (a regular-expression error when the format repeats a directive). str() of timedeltas is equal exactly when they are equally long.", "quantifier": "every date of the years 1 to 9999, every format string and text over the numeric directives, every timedelta", "why_tests_cant": "strptime is a backtracking matcher over an arbitrary format and text, and the dates form a domain of 10^17 instants; tests cover a handful of formats.", "anchors": ["src/contracting/stdlib/bridge/time.py: Datetime.__str__, Datetime.strptime, Timedelta.__str__"]}
{"id": "C88", "title": "convert_dict agrees with decode", "statement": "For every storable value, taking its stored text, loading it as plain JSON and passing the result to convert_dict never raises, and gives the value decode gives exactly when no typed value (decimal, date, timedelta, bytes, integer of 64 bits or more, or a dict) sits in a list stored directly or in a list directly inside another list; in those places convert_dict leaves the encoded form in place.", "quantifier": "every storable value of any depth", "why_tests_cant": "The agreement depends on the nesting of lists and dicts at every depth; tests use a few fixed shapes.", "anchors": ["src/contracting/storage/encoder.py: convert, convert_dict"]}
{"id": "C89", "title": "Powers of decimals", "statement": "For decimals x and y in range with y whole (either sign) and x not zero, x ** y is the exact power, off by at most 10^-60 of the larger of itself and one, then capped at 10^29 and rounded down once to 30 places; so wherever the power is within the decimal range the result is the exact power rounded down or one unit in the 30th place away. If the digits of the power fit sixty places it is the exact power rounded once. Powers of 10^102 and more raise; x ** 0 is 1; a negative number to a power that is not whole raises; 0 ** 0 raises, 0 to a positive power is 0, 0 to a negative power gives the cap 10^29. Whatever the operands, a power that does not raise is a decimal in range.", "quantifier": "all pairs of decimals in range, all whole exponents up to 10^29 in size and both signs", "why_tests_cant": "The result is built from up to 200 rounded products whose errors accumulate; tests check a few small powers.", "anchors": ["src/contracting/stdlib/bridge/decimal.py: ContractingDecimal.__pow__, ContractingDecimal.__rpow__"]}
{"id": "C90", "title": "Listings of what is on disk", "statement": "After any history of reads, writes, deletes, commits and rollbacks: keys_from_disk(prefix) lists, sorted and without repetition, exactly the names of variables (without their contract) that were committed in some contract and start with the prefix; with a length it gives that many of them, or all if there are fewer. get_contract_files lists, sorted, exactly the contracts with committed keys, and is_file agrees. iter_from_disk(prefix, length) lists, sorted, the names in the file the prefix names that start with the whole prefix, and a positive length keeps the first ones. get_run_state succeeds and gives, for every variable of every file whose name starts with two underscores, the committed value of the key of that bare name. Pending values are never listed.", "quantifier": "all readable initial disks, all histories of driver calls with well-formed keys and storable values, all prefixes and lengths", "why_tests_cant": "The listings depend on the whole history of commits and on every file of the directory; tests list one small directory.", "anchors": ["src/contracting/storage/driver.py: Driver.keys_from_disk, Driver.iter_from_disk, Driver.get_contract_files, Driver.is_file, Driver.get_run_state"]}
{"id": "C91", "title": "A contract's state changes only by its own functions", "statement": "Whatever other contracts do -- calling functions of contract c in any order, any depth, any number of times, failing half way -- the state of c after a successful transaction is in relation R to the state before, for every reflexive and transitive R that each of c's functions keeps when it returns; after a failed transaction it is the state before; the fee changes nothing but the sender's balance. The same holds from the start to the end of any history of transactions, applied blocks, commits, rollbacks, expiring cache entries and restarts. In particular a contract nobody calls keeps its state. Storage objects declared by other contracts cannot write under c.", "quantifier": "all contracts, all relations on their state, all programs of other contracts and modules, all call trees, all transactions with auto-commit off, all histories of a node", "why_tests_cant": "The claim is about every program other people can deploy and every history; a test has one caller.", "anchors": ["src/contracting/execution/executor.py: Executor.execute", "src/contracting/storage/orm.py: Variable, Hash", "src/contracting/storage/driver.py: Driver.get, Driver.set, Driver.hard_apply, Driver.commit, Driver.rollback", "src/contracting/execution/module.py: DatabaseLoader.exec_module", "src/contracting/compilation/compiler.py"]}
{"id": "C92", "title": "The currency is conserved", "statement": "With the token contract of the integration tests as the currency, no sequence of events makes money: a call of transfer (of an amount that is not negative) or balance that returns leaves the sum of all balances as it is, whoever calls it and from whatever code; a transaction, successful or failed, leaves the sum as it is except that the sender pays min(fee, what is left), which disappears; and in every history of transactions, applied blocks, commits, rollbacks, expiring cache entries and restarts the balances add up to at most what was there in the beginning, at least that minus the fees due, with no negative balance among them. (False for negative amounts, which transfer does not refuse, and for amounts above the largest decimal.)", "quantifier": "all states of the balances with total below 10^29, all callers, all programs of other contracts around the token contract, all transactions with auto-commit off, all histories of a node", "why_tests_cant": "It is a global invariant over all callers and histories that needs exact decimal arithmetic, atomic failure and the fee deduction to fit together; a test checks two balances after one transfer.", "anchors": ["tests/integration/test_contracts/currency.s.py: transfer, balance", "src/contracting/execution/executor.py: Executor.execute", "src/contracting/storage/orm.py: Hash", "src/contracting/stdlib/bridge/decimal.py: ContractingDecimal"]}
{"id": "C93", "title": "Contracts of the language change only their own state", "statement": "Take contracts that the compiler accepts under names without dots and that construct storage in top-level assignments only (the storage classes are mentioned nowhere else, and none names a private function or declaration Driver). Whatever their functions compute, call and pass on, a transaction that calls a public function of one of them changes the state of a contract c only through the exported functions of c, entered through their wrapper, with arguments by which nothing of c can be written. So any reflexive, transitive relation that these functions keep is kept by every history. If a function constructs storage itself this is false: Variable(contract='con_a', name='x').set(7) inside a function of con_b is accepted and overwrites con_a.x.", "quantifier": "all source modules of the modelled language, all sets of deployed contracts, all functions and arguments, all operations on data, all call depths and loop bounds, all transactions and histories", "why_tests_cant": "It is a statement about every contract anyone can write; tests run a few.", "anchors": ["src/contracting/compilation/linter.py: Linter", "src/contracting/compilation/compiler.py: ContractingCompiler", "src/contracting/execution/module.py: DatabaseLoader.exec_module", "src/contracting/stdlib/env.py: gather", "src/contracting/stdlib/bridge/access.py: __export", "src/contracting/stdlib/bridge/orm.py", "src/contracting/stdlib/bridge/imports.py", "src/contracting/storage/orm.py: Variable, Hash, ForeignVariable, ForeignHash"]}
{"id": "C94", "title": "Compiling a contract does not change what it means", "statement": "Give source modules their own meaning: the storage object declared as x in contract c is c.x, undecorated functions and storage objects can be named inside the module only, calling an exported function enters its contract, the constructor runs at submission, 1.5 is a decimal. If the deployed contracts are accepted, construct storage in declarations only and are well named, then what the compiled forms run for any public function, the constructor and the top level, whatever they call in other contracts, is what the sources say; every transaction has the same status, result, writes, reads, events, stamps and final state. Well named: functions, arguments and imported modules do not start with an underscore, exported functions, arguments and imports are not named like a private function or storage object, no private name is export, nothing is called decimal. Without it this is false of accepted contracts: an argument named like a private function is ignored in favour of the function, a float literal calls an argument called decimal, an argument __x hides the storage object x.", "quantifier": "all source modules of the modelled language and all sets of deployed contracts, all functions and arguments, all operations on data, all call depths and loop bounds, all configurations, worlds and transactions", "why_tests_cant": "It is compiler correctness: a statement about every contract anyone can write.", "anchors": ["src/contracting/compilation/compiler.py: ContractingCompiler.parse, visit_FunctionDef, visit_Assign, visit_Name, visit_Num", "src/contracting/execution/module.py: DatabaseLoader.exec_module", "src/contracting/stdlib/bridge/access.py: __export", "src/contracting/execution/executor.py: Executor.execute"]}
{"id": "C95", "title": "The token contract as written conserves money", "statement": "Take the token contract's source text, compile it and run it: its three functions do, in every state and for every argument that is not a tuple, exactly the sequence of reads, writes, checks and charges written in the file (sender's balance checked and reduced before the recipient's is read; missing recipient gets the amount, existing one is increased; called with missing or extra arguments it raises and writes nothing). The constructor creates 1000100 coins, and from then on no transaction on the contract with an amount that is not negative creates or destroys coins except the fee its sender pays.", "quantifier": "every chain on which the contract's compiled source is deployed, whatever else is deployed; every state; all keyword arguments; every transaction on the contract with an int or decimal amount that is not negative and a recipient with a plain name, metered or not, successful or failed", "why_tests_cant": "It needs the evaluation order of every statement in every state, composed with the compiler's renaming and with metering, rollback and fees; a unit test transfers once between two accounts.", "anchors": ["tests/integration/test_contracts/currency.s.py", "src/contracting/compilation/compiler.py: ContractingCompiler.parse", "src/contracting/storage/orm.py: Hash.__setitem__, Hash.__getitem__", "src/contracting/execution/executor.py: Executor.execute", "src/contracting/stdlib/bridge/access.py: __export.__enter__, __exit__"]}
{"id": "C96", "title": "On a node, stored code stays genuine and every deployed contract keeps what its own functions keep", "statement": "Start a node on a disk where all contract code is the compiled form of accepted sources, and let anybody submit further contracts through the submission contract and call whatever is deployed. Then at every moment the code the node would run for any contract is the compiled form of a source that the compiler accepted under exactly that contract's name. For a contract that is already deployed: its stored code never changes, and any relation between its states that its exported functions keep when they return (other than about the recorded developer) is kept by the whole history, whatever new contracts and constructors do and whoever submits again under its name.", "quantifier": "every history of any length from a freshly opened disk: submissions with any name, source, owner and constructor arguments, calls of any public function of any deployed contract with any arguments and depth, changes of developer, successful and failed, metered or not; blocks, commits, rollbacks, cache expiry, restarts; every relation R that is transitive and ignores the developer; every Python data semantics, parser and printer for which the code object stored for a written text means the module it was written from", "why_tests_cant": "It is an invariant of unbounded histories in which the code that runs is itself read from the state being changed; a unit test submits one or two contracts and calls them.", "anchors": ["src/contracting/contracts/submission.s.py: submit_contract, change_developer", "src/contracting/storage/contract.py: Contract.submit", "src/contracting/storage/driver.py: Driver.set_contract, Driver.get_contract", "src/contracting/execution/module.py: DatabaseLoader.exec_module", "src/contracting/compilation/compiler.py: ContractingCompiler.parse_to_code", "src/contracting/execution/executor.py: Executor.execute"]}
{"id": "C97", "title": "A submission deploys exactly the submitted source; nothing else changes code", "statement": "On a node, if a transaction of submission.submit_contract succeeds, then the compiler accepted the given source under the given name, which had no code before; the top level and constructor of exactly this compiled source ran once, with the given constructor arguments, on the state the transaction found and for its sender; afterwards the node runs exactly the compiled source under that name and every other contract's code is what it was; and apart from the fee and the five records of the new contract the state is what the constructor left. Every other transaction (a call of any deployed contract, a change of developer, a submission that fails) leaves the code of every contract unchanged. A change of developer that succeeds was sent by the recorded developer, records the new developer given and, the fee apart, changes nothing else.", "quantifier": "every node whose stored code is genuine (C96 shows that every history from a genuine disk leads to such states), every transaction with any sender, arguments, constructor arguments, stamps and depth, metered or not, successful or failed; every contract name; every Python data semantics, parser and printer with the round trip of C96", "why_tests_cant": "It equates the code found after arbitrary constructors and calls have run with the source submitted, for all programs in the language; a unit test submits a few fixed sources and compares a few fixed values.", "anchors": ["src/contracting/contracts/submission.s.py: submit_contract, change_developer", "src/contracting/storage/contract.py: Contract.submit", "src/contracting/storage/driver.py: Driver.set_contract, Driver.get_contract", "src/contracting/execution/module.py: DatabaseLoader.exec_module", "src/contracting/compilation/compiler.py: ContractingCompiler.parse_to_code", "src/contracting/execution/executor.py: Executor.execute"]}
{"id": "C98", "title": "A node behaves as if it ran the submitted sources", "statement": "Take any node history: transactions of any senders that submit contracts, call them and call one another, successful or failing, in blocks that are committed (hard_apply or commit) or rolled back, with cached entries expiring at any time and with restarts. It is, state for state and output for output, a history of an ideal node that never compiles, marshals, stores or loads code: this one remembers the source text's module for each name whose submission succeeded (and forgets it again on a rollback that undoes the submission), and runs top levels, constructors and exported functions as the source says. At every point the node would run exactly the compiled forms of the remembered sources, and whatever transaction comes next has the same result, stamps used, writes, reads, events and resulting state on both.", "quantifier": "every disk to start from whose code is genuine, every finite history of submissions, calls, commits, rollbacks, evictions and restarts; every contract in the language, any call depth and any fees; every Python data semantics, parser, printer and code-object format with the round trip of C96", "why_tests_cant": "It equates two machines over all histories: the one that stores code objects and loads them through cache, pending writes and disk, and one that keeps sources. Tests compare a few outputs of a few fixed contracts within one process.", "anchors": ["src/contracting/contracts/submission.s.py: submit_contract", "src/contracting/storage/contract.py: Contract.submit", "src/contracting/storage/driver.py: Driver.set_contract, Driver.get_contract, Driver.get_compiled, Driver.find, Driver.commit, Driver.hard_apply, Driver.rollback", "src/contracting/execution/module.py: DatabaseFinder.find_module, DatabaseLoader.create_module, DatabaseLoader.exec_module", "src/contracting/compilation/compiler.py: ContractingCompiler.parse, ContractingCompiler.visit_FunctionDef, ContractingCompiler.visit_Name", "src/contracting/execution/executor.py: Executor.execute"]}
{"id": "C99", "title": "Every event a node reports is declared in a contract source", "statement": "After any history of a node (contracts submitted and called by anybody, blocks committed or rolled back, restarts), every event in the output of a successful transaction is declared by a top-level assignment `x = LogEvent(event='...', params={...})` in the source of a contract that the node runs after that transaction: the reported name is the declared one, the reported arguments are exactly the declared parameters, split into indexed and other ones as declared, each of a declared class and at most 1024 bytes long; the declaration has at least one parameter, at most three indexed ones and only the classes str, int, float, bool and decimal; and the reported signer is the sender of the transaction. No contract can report anything else, whatever it calls, imports or passes around.", "quantifier": "every genuine starting disk, every finite node history and every following transaction; every contract in the language, any call depth, any fees; every Python data semantics in which decimal('...') and constants other than strings give no strings, every parser, printer and code-object format with the round trip of C96", "why_tests_cant": "It is a statement about all programs that the compiler accepts and all histories of them: events pass through local variables, arguments, imports and other contracts. Tests emit a few events from fixed contracts.", "anchors": ["src/contracting/storage/orm.py: LogEvent", "src/contracting/compilation/compiler.py: ContractingCompiler.visit_Assign, ContractingCompiler.visit_Call", "src/contracting/compilation/linter.py: Linter.visit_Assign", "src/contracting/execution/executor.py: Executor.execute", "src/contracting/storage/driver.py: Driver.set_event"]}
{"id": "C100", "title": "A node keeps nothing but storage between transactions", "statement": "After any history of a node -- submissions, calls, failing and successful, calls refused because of an owner, commits, rollbacks, restarts -- no call context is left over, and whatever transaction comes next (any sender, contract, function, arguments and configuration) has the same output and leaves the same storage as on a node that has just been started on the same storage.", "quantifier": "every genuine starting disk, every finite node history, every following transaction and configuration; every contract in the language, any call depth, any fees", "why_tests_cant": "The process keeps module caches, a context stack, a seeded generator, log objects and a tracer in globals; that none of them leaks into the next transaction must hold after every history, in particular after every kind of failure inside nested calls. A test sees only the leaks it looks for.", "anchors": ["src/contracting/execution/runtime.py: Context, Runtime", "src/contracting/execution/executor.py: Executor.execute", "src/contracting/execution/module.py: DatabaseLoader, enable_restricted_imports, uninstall_database_loader", "src/contracting/stdlib/bridge/random.py: Seeded", "src/contracting/stdlib/bridge/access.py: __export"]}
{"id": "C101", "title": "Nodes that get the same requests agree, whatever their caches have lost and however often they were restarted", "statement": "Give several nodes, started on the same disk, the same sequence of transactions, blocks (commits with a time stamp), plain commits and rollbacks. However many entries each node's read cache loses along the way (time-to-live expiry, in any pattern), and however often each node is stopped and started again between blocks, every transaction's output is the same on all of them, and so are the disk, the pending writes and the contract code each node finds and runs. Each node finds the code it runs in its own storage. The contracts deployed use neither Hash.all nor Hash.clear; with those the claim is false (C101_refuted_listing).", "quantifier": "every genuine starting disk, every finite request sequence, every pattern of evictions and of restarts between blocks, every contract in the language without the two listing calls, any call depth, any fees", "why_tests_cant": "Validators must agree on every block although each has its own cache contents, expiry times and restart history. A test runs one node with one cache history; the claim compares all pairs of cache and restart histories.", "anchors": ["src/contracting/storage/driver.py: Driver.find, Driver.set, Driver.commit, Driver.soft_apply, Driver.hard_apply, Driver.rollback, Driver.flush_cache", "src/contracting/execution/module.py: DatabaseLoader.exec_module", "src/contracting/execution/executor.py: Executor.execute", "src/contracting/contracts/submission.s.py: submit_contract", "src/contracting/storage/orm.py: Hash.all, Hash.clear"]}
{"id": "C102", "title": "Metered contract code finishes", "statement": "A metered transaction always comes to an end, whatever contract it calls: infinite loops, unbounded recursion and endless mutual calls included. The interpreter of contract code in the model takes a bound (depth of calls and imports, rounds of a loop) and raises an error of the caller's choice when it is reached; for every contract there is a bound beyond which the outcome (result, stamps, writes, reads, events) and the state left behind are the same for every bound and whatever error would be raised at it, that is, the bound is never reached. It suffices to exceed the limit on traced lines and the nesting of the contract's imports. Of unmetered transactions this is false (C102_refuted_unmetered: an endless loop reaches every bound).", "quantifier": "every history of submissions, calls, commits, rollbacks, cache evictions and restarts, every contract, function, arguments, stamps, prices, sender; every bound", "why_tests_cant": "That no program runs for ever is a statement about all programs and all inputs; a test can only wait for some loop to be cut off.", "anchors": ["src/contracting/execution/tracer.py: Tracer.trace_func, Tracer.add_cost", "src/contracting/execution/executor.py: Executor.execute", "src/contracting/execution/runtime.py: Runtime.set_up", "src/contracting/contracts/submission.s.py: submit_contract", "src/contracting/execution/module.py: DatabaseLoader.exec_module"]}
{"id": "C103", "title": "Imports of deployed contracts neither dangle nor go in circles", "statement": "If that holds of the disk a node is started on (for instance if there are no contracts yet), then after every history every contract a deployed contract imports is itself deployed (or is the submission contract), and so on down, and no chain of imports leads back to where it started; the same holds of what is on disk, so also after a restart. A submission whose source imports a contract that is not deployed, itself included, fails.", "quantifier": "every history of submissions and calls by anybody, successful or failing, commits, rollbacks, cache evictions and restarts; every contract in the modelled language; every chain of imports of any length", "why_tests_cant": "The property is an invariant over all histories and all import graphs; rollbacks and restarts could remove a contract that another one imports, which a few test histories do not show.", "anchors": ["src/contracting/contracts/submission.s.py: submit_contract", "src/contracting/storage/contract.py: Contract.submit", "src/contracting/execution/module.py: restricted_import, DatabaseFinder.find_spec, DatabaseLoader.exec_module", "src/contracting/execution/executor.py: Executor.execute", "src/contracting/storage/driver.py: Driver.commit, Driver.rollback, Driver.hard_apply, Driver.flush_cache"]}
{"id": "C104", "title": "The stamps reported are enough, and more of them change nothing", "statement": "If a metered transaction succeeds and reports fewer stamps used than it was given, then the same transaction on the same state with any number of stamps from the number reported upwards (for more than before: as far as the sender passes the funds check) does exactly the same: same result, events, writes, fee, and the same state afterwards. If it used up all it was given, then with more stamps it succeeds again with the same result and events, is charged at most five stamps more, and leaves the same state except for the sender's balance.", "quantifier": "every contract in the modelled language and the submission contract, every state, every sender, function and arguments, every number of stamps", "why_tests_cant": "It compares two executions of arbitrary code for all pairs of stamp limits; that no code can observe its limit is not something samples show.", "anchors": ["src/contracting/execution/executor.py: Executor.execute", "src/contracting/execution/tracer.py: Tracer.add_cost, Tracer.trace_func", "src/contracting/execution/runtime.py: Runtime.set_up, Runtime.deduct_write"]}
{"id": "C105", "title": "A transaction depends only on the keys it reports as read; apart transactions commute", "statement": "The reads that execute returns are complete: run the same transaction (auto_commit off; code that neither lists a Hash nor changes a stored list or dict in place) in any other state that agrees on the keys reported as read, and it has the same result, events, stamps and reported writes, leaves the same under those keys, and changes no other key in either state. Hence two transactions of which neither writes what the other one reports as read can be run in either order: each has the same output as on its own, and the state in the end is the same.", "quantifier": "every pair of states and every agreement between them, all code (including code that catches exceptions, nested calls and imports), every outcome (success, failure, out of stamps), metered or not", "why_tests_cant": "It is about two executions of arbitrary code in all pairs of states; a scheduler that trusts the reported reads relies on it for keys no test has thought of.", "anchors": ["src/contracting/execution/executor.py: Executor.execute", "src/contracting/storage/driver.py: Driver.get, Driver.set, Driver.find", "src/contracting/storage/orm.py: Variable, Hash", "src/contracting/execution/module.py: DatabaseLoader, restricted_import"]}
{"id": "C106", "title": "Metering changes nothing but the fee", "statement": "If a metered transaction succeeds, executing the same transaction in the same state without metering succeeds too, with the same result and the same events; it reports the same writes and leaves the same state behind, except for the sender's balance, and the balance left by the metered execution is that of the unmetered one minus the fee (never below zero). A dry run without stamps therefore shows exactly what the paid execution will do. Fails only where library code swallows the meter's exception.", "quantifier": "every configuration, every transaction (any contract code of a node, or any code that lets exceptions through), every state whose disk can be read", "why_tests_cant": "Metering is woven through every write, every traced line and every event; a test compares a handful of contracts, not every program, and not every point at which charging could influence what the program does.", "anchors": ["src/contracting/execution/executor.py: Executor.execute", "src/contracting/execution/runtime.py: Runtime.set_up", "src/contracting/execution/runtime.py: Runtime.deduct_write", "src/contracting/execution/tracer.py: Tracer", "src/contracting/storage/driver.py: Driver.set"]}
{"id": "C107", "title": "auto_commit is execute followed by commit", "statement": "From a state with nothing pending, execute(..., auto_commit=True) returns the same result, stamps_used, writes and events as execute(..., auto_commit=False), and the state it leaves on disk, and everything that can be read afterwards, is what commit() would have left after the latter. With auto_commit on, a call of execute that returns always leaves nothing pending and nothing cached, whatever was pending before, and always reports empty reads.", "quantifier": "every transaction (success, failure, out of stamps; metered or not), every state with nothing pending, every key; the second part: every state and every outcome", "why_tests_cant": "It compares two modes of the executor on all programs and states; the tests use the modes separately, each on a handful of contracts.", "anchors": ["src/contracting/execution/executor.py: Executor.execute", "src/contracting/storage/driver.py: Driver.commit, Driver.flush_cache, Driver.find"]}
{"id": "C108", "title": "When pending work is written to disk, and when a node restarts, does not matter", "statement": "Two nodes that start from the same disk and execute the same transactions, but call commit(), hard_apply(nanos) (with nanos of their own choosing) or lose cache entries at different moments in between, or restart the process at different moments when nothing is pending, get the same results, stamps_used, writes and events for every transaction, and everything that can be read afterwards is the same. Wherever one of them stands, the remaining transactions succeed there as well. The same holds for a node that joins with a disk of its own as long as it shows the same values.", "quantifier": "every list of transactions, every two schedules of commits, block applications, cache evictions and restarts, of any length, every starting disk, every key", "why_tests_cant": "It ranges over all programs and over all pairs of schedules; the tests commit at fixed places.", "anchors": ["src/contracting/storage/driver.py: Driver.commit, Driver.hard_apply, Driver.find, Driver.get, Driver.set", "src/contracting/execution/executor.py: Executor.execute"]}
{"id": "C109", "title": "Transactions that are apart can be executed in any order", "statement": "Take any number of transactions, each tried on its own in the same state, none of which reports as written a key that another one reports as read. Executed one after the other in any order, each gives the result, stamps_used, events and writes that it gives on its own, and what can be read in the end is the same for every order: under each key, what the one transaction that changes it leaves on its own.", "quantifier": "every list of transactions of any length, every permutation of it, every state of the process between transactions, every key", "why_tests_cant": "It ranges over all programs, all numbers of transactions and all their orders; a block producer that reorders or parallelizes by the reported reads and writes relies on it.", "anchors": ["src/contracting/execution/executor.py: Executor.execute", "src/contracting/storage/driver.py: Driver.get, Driver.set, Driver.find"]}
{"id": "C110", "title": "Contracts that never list a hash depend only on what they report as read, and can be reordered", "statement": "On a node whose deployed contract sources are accepted by the compiler, construct storage in declarations only and mention neither .all nor .clear, every transaction that calls a public name of a contract depends on the stored state only through the keys it reports as read: in any other state that agrees on those keys it has the same result, events, stamps and writes and changes nothing else. Any number of transactions (successful or not), none of which reports as written what another one reports as read, can be executed in any order with the results they have on their own and the same final state. The condition can be checked on the source text.", "quantifier": "every set of deployed contract sources of the language, every call tree between them, every transaction, every state, every number and order of transactions", "why_tests_cant": "It ranges over all contract sources and all states; a test runs one contract in one state.", "anchors": ["src/contracting/compilation/compiler.py: ContractingCompiler", "src/contracting/compilation/linter.py: Linter", "src/contracting/storage/orm.py: Variable, Hash", "src/contracting/execution/executor.py: Executor.execute"]}
