# Formal model of xian-contracting in Lean 4

`properties.jsonl` lists 110 properties; `MANIFEST.json` names the 406 theorems that establish them.

## 1. Layout

* `lean/Verif/Model/*.lean`  – executable model, function by function; each definition cites the lines of `/repo` it models and says where it simplifies.
* `lean/Verif/Spec/*.lean`   – small specifications that do not use the model's helpers (rationals, plain maps, day counts, a lexically scoped interpreter, a grammar of acceptable contracts, ...).
* `lean/Verif/Proofs/*.lean` – lemmas.
* `lean/Verif/Props/*.lean`  – the property theorems (`C01_...`); beside each an `example` that meets its hypotheses on a concrete case.
* `seeded/LOG.jsonl`         – wrong programs tried on scratch copies of the model, and which theorems noticed.

## 2. Conventions

* Exceptions are values (`Except PyErr α`, or an outcome together with the state reached); mutation is state passing. Operations that raise half-way return the state reached so far, so "a failed operation changes nothing" is a theorem, not a modelling decision.
* Python `str` is `List Char`, `int` is `Int`, `dict` is an insertion-ordered association list, `None` is a value. A float is carried as its `repr` text.
* Third-party behaviour (`json`, `decimal`, `datetime`, `h5py` path rules, `random`'s `_randbelow`, `bytes.fromhex`, the `ast` node classes) is written out in the model where a property depends on it. What stays a *parameter* (quantified over in every theorem): the random generator, the hash functions, libsodium's verification, the text-to-tree parser and tree-to-text printer, `marshal`, cache eviction, float division of the fee.
* **Contract code is an interaction tree** (`Prog`, `Model/Runtime.lean`): every call into the API with a continuation for each answer. A theorem about all `Prog`s is a theorem about all terminating contract executions, whatever Python computes between the calls. Non-terminating code is treated by C31 over arbitrary event sequences.
* **The contract language has a semantics of its own** (`Model/Lang.lean`, `Model/Interp.lean`, C93 on): the statements contracts are written in, as typed trees that embed into the trees of the compiler model, and their meaning as `Prog`s. What Python computes on plain data is an arbitrary function (`Data`); what the model leaves out ends in the exception `unmodelled`. `PyErr.recursion` stands for code that calls or loops deeper than the bound `n`, which is arbitrary in all theorems.
* **When the property one would first write down is false of the code**, the statement in `properties.jsonl` is the exact one that is true, its exceptions are part of the statement, and a theorem `..._refuted` shows with a concrete run that the exception is real. No theorem carries the suffix `_partial` at present.

## 3. Properties

| id | property | what is modelled | how it is proved | theorems in |
|----|----|----|----|----|
| C01 | Decimal arithmetic is exact, rounded once, and bounded | `Decimal` triples, context rounding, `fix_precision`, `+ - * /` | refinement to floor on rationals (`Spec.fix`); nested-floor lemma | Props/Decimal.lean |
| C02 | Every contract decimal is a canonical 30-place value in (-10^30, 10^29] | the constructor from every kind of argument, all operators | invariant `IsCD`; iff for equal representations | Props/Decimal.lean |
| C03 | Decimals survive printing and re-reading | `__str__`, `to_eng_string`-like text, the string constructor | parse after print by induction on digit lists | Props/Decimal.lean |
| C04 | Token transfers conserve the total | the token contract of the tests on top of the decimals | exactness of `+`/`-` below the cap, induction over transfer lists | Props/Decimal.lean |
| C05 | Decimal comparisons agree with numeric order | comparison methods, `_get_other`, `__bool__` | value map into `Rat` | Props/Decimal.lean |
| C06 | How number texts become decimals | `neg_sci_not` and the constructor on the grammar of number texts | case analysis of the slicing code; exact value per case | Props/Decimal.lean |
| C07 | Equal decimals are stored as the same bytes | encoder on decimals | canonical form; iff | Props/Encoder.lean |
| C08 | Stored values read back unchanged | `encode`/`decode` down to JSON text; JSON printer and parser; object hook | mutual induction on values; parser/printer round trip | Props/Encoder.lean, Props/Encoder2.lean |
| C09 | Distinct storable values have distinct encodings | same | corollary of C08 | Props/Encoder.lean |
| C10 | Integers outside 64 bits are always tagged | `encode_ints_in_dict`, `encode_ints_in_list` | mutual induction; iff | Props/Encoder.lean |
| C11 | Decoding never turns plain data into typed objects | object hook on arbitrary JSON | mutual induction, both directions | Props/Encoder.lean, Props/Encoder2.lean |
| C12 | When two entries share a state key | `make_key`, `Variable`/`Hash` keys, `str()` of index components | join/split injectivity; iff | Props/Keys.lean |
| C13 | When two keys share a disk location | `__parse_key`, file names, HDF5 path normalisation | iff on locations | Props/Keys.lean |
| C14 | Hash index validation enforces its limits | `Hash._validate_key` | iff | Props/Keys.lean |
| C15 | A contract only writes its own state | every ORM operation on keys | invariant over all inputs | Props/Keys.lean |
| C16 | Read your writes | `Driver.get`/`set`/`delete` with any cache | case analysis, induction over histories | Props/Driver.lean |
| C17 | The layered driver behaves like a simple two-level map | `Driver` against a two-map machine (`Spec/Driver.lean`) | refinement over all histories | Props/Driver.lean |
| C18 | Commit is durable and does not change visible state | `commit` | refinement corollary | Props/Driver.lean |
| C19 | rollback() discards every uncommitted change | `rollback()` | direct, every state | Props/Driver.lean |
| C20 | What rollback(n) does | `rollback(n)` | direct, every state with deltas | Props/Driver.lean, Props/Driver2.lean |
| C21 | hard_apply persists exactly the pending writes with the block stamp | `soft_apply`/`hard_apply`, nanosecond stamps | invariant; ordered deltas as a fold | Props/Driver.lean, Props/Driver2.lean |
| C22 | What a listing contains | `items`, `keys`, `iter`, disk listings | exact membership (iff) | Props/Driver.lean, Props/Driver2.lean |
| C23 | A rejected write changes nothing | `set` with every failing check | case analysis | Props/Driver.lean |
| C24 | What the reported reads are | `pending_reads` | invariant over histories | Props/Driver.lean |
| C25 | A crash during commit leaves a recoverable prefix | `commit` as a list of elementary attribute operations | every prefix; idempotent redo | Props/Driver.lean |
| C26 | Cache eviction is invisible | cache with arbitrary eviction | simulation | Props/Driver.lean |
| C27 | A failed transaction leaves no contract writes behind | `Executor.execute` over interaction trees | induction over programs; state relation | Props/Executor.lean |
| C28 | Failed transactions report no effects | same | case analysis over outcomes | Props/Executor.lean |
| C29 | Fees are bounded and balances never go negative | stamp accounting, fee, balance update | rational arithmetic on C01 | Props/Executor.lean |
| C30 | Metered work is paid for and capped | tracer, `deduct_write` | induction over programs | Props/Meter.lean |
| C31 | Metered contracts always stop | the tracer on arbitrary (also infinite) event sequences | counter variant over all prefixes | Props/Meter.lean |
| C32 | Transactions do not influence each other through runtime state | the whole process state over histories | non-interference (relation between two worlds) | Props/Isolation.lean |
| C33 | No funds, no execution | balance check | direct | Props/Executor.lean |
| C34 | Private functions cannot be called from outside | private-method check | direct | Props/Executor.lean |
| C35 | Every state change is reported in writes | `writes` of the output | per-key invariant over programs | Props/Executor.lean |
| C36 | ctx is right at every point of every call tree | `Context`, `__export`, cross-contract calls | agreement with a lexically scoped reference interpreter | Props/Context.lean |
| C37 | Owned contracts only run for their owner | `Context._ins_state`, owner check | case analysis for every owner value | Props/Context.lean |
| C38 | The context stack is empty after every transaction | context stack over histories | invariant | Props/Context.lean |
| C39 | Which identifiers an accepted contract uses | Python AST, `Linter.visit_Name`/`visit_Attribute` | structural induction over all positions | Props/Ast.lean |
| C40 | Accepted contracts contain no forbidden syntax | `Linter` whitelist walk | structural induction | Props/Ast.lean |
| C41 | Accepted contracts have well-formed entry points | decorator and annotation checks | structural induction | Props/Ast.lean |
| C42 | What functions become when compiled | `ContractingCompiler` on functions and calls | structural induction; provenance relation `Origin` | Props/Ast.lean, Props/Export.lean |
| C43 | No float literal survives compilation | `visit_Num`/`visit_Constant` | structural induction | Props/Ast.lean |
| C44 | ORM declarations are bound to the declaring contract | `visit_Assign`, ORM declarations | structural induction; provenance | Props/Ast.lean |
| C45 | Contract variables cannot collide with system keys | same with key construction | corollary of C12/C44 | Props/Ast.lean |
| C46 | Timedelta arithmetic is arithmetic on total seconds | `Timedelta` | integer arithmetic | Props/Encoder2.lean, Props/Time.lean |
| C47 | Datetime arithmetic is consistent | `Datetime` with the proleptic Gregorian calendar | counting specification of days; integer arithmetic | Props/Time.lean |
| C48 | Randomness is a deterministic function of the block environment | random bridge over an abstract generator, seeding | reference function of the environment; non-interference | Props/Calls.lean, Props/Random.lean |
| C49 | Random results are in range | `randrange`, `randint`, `choice`, `getrandbits`, ... via `_randbelow` | for all generators; attainability | Props/Random.lean |
| C50 | Dynamic import only reaches deployed contracts by plain names | `importlib.import_module` | case analysis; iff | Props/Imports.lean |
| C51 | Contract submission rules | `submission.s.py`, `Contract.submit`, `set_contract` | symbolic run of the program for every world | Props/Submission.lean |
| C52 | Deployed code is immutable | all code and transactions against `__code__` keys | invariant over histories | Props/Submission.lean |
| C53 | Only the developer can hand over a contract | `change_developer` | symbolic run | Props/Submission.lean |
| C54 | Emitted events match their declaration | `LogEvent` | invariant over programs | Props/Calls.lean, Props/Events.lean |
| C55 | Typed variables only hold their type | `Variable(t=...)` | invariant over histories | Props/Orm.lean |
| C56 | What key_is_valid accepts | `key_is_valid` | iff on strings | Props/Crypto.lean |
| C57 | What the hash functions hash | `sha256`/`sha3` argument decoding | iff on strings | Props/Crypto.lean |
| C58 | Contract method listing shows exactly the public functions | `methods_for_contract` | set equality over trees | Props/Ast.lean |
| C59 | run_private_function restores protection | `run_private_function` | case analysis | Props/Client.lean |
| C60 | Foreign variables and hashes are read-only | `ForeignVariable`/`ForeignHash` | every operation | Props/Orm.lean |
| C61 | Module imports inside contract calls are restricted to contracts | import hook while a call is running | invariant over programs | Props/Imports.lean |
| C62 | execute only runs deployed contract code | entry module lookup of `execute` | invariant over histories | Props/Imports.lean |
| C63 | The time client calls run at | client environment and `now` | exact; induction over calls | Props/Client.lean, Props/Environment.lean |
| C64 | quick_write and quick_read | `quick_write`/`quick_read` | refinement corollary | Props/Client.lean |
| C65 | Submission time is the block time | `__submitted__` | symbolic run | Props/Submission.lean |
| C66 | Underscore names in compiled contracts | compiled names with a leading underscore | provenance relation | Props/Ast.lean |
| C67 | What the variable listing shows | `variables_for_contract` | exact listing over trees | Props/Ast.lean, Props/Variables.lean |
| C68 | What delete_contract removes | `delete_contract` | exact effect per key | Props/Driver2.lean |
| C69 | What get_all_contract_state returns | `get_all_contract_state` | iff | Props/Driver2.lean |
| C70 | What get_contracts lists | `get_contracts` | iff | Props/Driver2.lean |
| C71 | flush_full and flush_file erase | `flush_full`, `flush_file` | every state | Props/Driver2.lean |
| C72 | Installing the submission contract | client `flush`, `set_submission_contract` | symbolic run | Props/Driver2.lean |
| C73 | Arguments reach the function as given, floats as decimals | argument conversion of `execute` | relation `Passed` on values | Props/Args.lean |
| C74 | crypto.verify accepts exactly correct signatures | `crypto.verify` with libsodium as a parameter | iff on strings | Props/Crypto.lean |
| C75 | Contract code sees the environment of its transaction | environment of a run, `now`, `block_num`, ... | invariant over programs and histories | Props/Environment.lean |
| C76 | Exactly which contracts the compiler accepts | linter and compiler together | iff against an independent `Acceptable` | Props/Accept.lean |
| C77 | Signs, whole-number division, remainder and int of decimals | unary operators, `//`, `%`, `int`, `abs` | rational arithmetic | Props/Decimal2.lean |
| C78 | round of decimals | `__round__` | rational arithmetic | Props/Decimal2.lean |
| C79 | What enforce_interface checks | `enforce_interface` and the module namespace | iff; contract form from C76 | Props/Interface.lean |
| C80 | Calling contracts through the client | `get_contract`, proxies, argument binding | exact outcome of every call | Props/Proxy.lean |
| C81 | How decimals are printed | `to_eng_string` on normalised values | digit-list lemmas against an independent notion of plain text | Props/Text.lean |
| C82 | Using one compiler several times | the attributes of `ContractingCompiler` over its lifetime | state invariant over histories; congruence of the transformation in the collected names | Props/Compiler.lean |
| C83 | Which storage names are attributes of the client's contract object | Model/Proxy.lean getAttr over Driver.items and Variable/HashVar. | Listing lemma: with a plain-key directory the only dotted keys a listing contains are the live ones; then case analysis of getAttr. | Props/Attribute.lean |
| C84 | Concurrent writes to the state files behave as if made one at a time | Model/Lock.lean: threads with idle/waiting/inside states, one lock per file, one attribute operation per step. | Invariant over schedules: a held file is as the first k steps of the holder's call leave the sequential disk, a free file is the sequential disk; spec Spec/Lock.lean runs the returned calls alone. | Props/Lock.lean |
| C85 | client.submit deploys what it was given, or raises and leaves nothing | Model/Proxy.lean Client.submit and submitFn over proxyCall, execute, submitContract. | Decompose a successful execute into its run of submit_contract, apply C51_rules and C51_recorded, carry the records through clean-up and fee (record keys are never balance keys); C27_failed for failures. | Props/Submit.lean |
| C86 | Nodes that run the same transactions and blocks agree | whole executor and driver; a node's history is an inductive relation with evictions and restarts anywhere between steps | simulation between two worlds that differ only in coherent caches, through every API call, program, transaction and block | Props/Replica.lean |
| C87 | Dates survive being written and read as text | Model/TimeText.lean: str and strptime with the ordered alternatives of each directive and backtracking; Spec/TimeText.lean: write (strftime), mentioned, Says. | fixed-width digit comparison by induction on width; strong induction on the format for match_write and says_of_match. | Props/TimeText.lean |
| C88 | convert_dict agrees with decode | Model/Convert.lean: convert_dict over plain JSON data; Model/Encoder.lean for encode and decode. | mutual structural induction over values, with the exact place of agreement (ListsPlain) as an iff. | Props/Encoder2.lean |
| C89 | Powers of decimals | Model/Power.lean: libmpdec's power algorithm for whole exponents (square and multiply with half-even rounding at 62 + digits places, reciprocal for negative exponents, early overflow and underflow tests), checked against the C module on 60000 random cases. | error analysis: relative errors for bases of at least one, absolute errors for bases of at most one, by induction over the bits of the exponent; soundness of the early tests by Bernoulli's inequality; exactness by an invariant that no product is rounded. | Props/Power.lean |
| C90 | Listings of what is on disk | Model/DiskListing.lean on the model's disk (Model/Hdf5.lean). | an invariant of the collecting loop (what is in the set, what is not, how many), the refinement invariant of the driver (every location on disk comes from a well-formed key) and injectivity of file.name for names without dots. | Props/DiskListing.lean |
| C91 | A contract's state changes only by its own functions | Spec/Guard.lean over Model/Runtime.lean (Prog), Model/Executor.lean and Model/Driver.lean. | induction on the program tree with the callee's contract as a parameter, then the frame lemmas of execute, then an invariant over histories (cache coherent under c, state and disk both in relation to the start). | Props/Guard.lean |
| C92 | The currency is conserved | Model/Token.lean: transfer and balance as programs over the modelled storage, decimals and metering; the history is the one of C91 with fees paid out of the token contract. | Exactness of contract decimals below 10^29 (C01, C05), the read-back of stored decimals (C04), the general guard theorem of C91 with signers, the fee theorem C29; sums over finite sets. | Props/Token.lean |
| C93 | Contracts of the language change only their own state | Model/Lang.lean, Model/Interp.lean: syntax and semantics of contracts as programs of Model/Runtime.lean; Spec/Lang.lean. | mutual induction over expressions and statements: names give harmless values, harmless values stay harmless; induction on the call depth; the linter's theorems (C39, C41, C44) give the premises for compiled modules; then C91. | Props/Lang.lean |
| C94 | Compiling a contract does not change what it means | Spec/Source.lean: meaning of source modules; Model/Lang.lean, Model/Interp.lean: compiler and meaning of compiled modules. | the names the compiler renames are the private names; renaming is injective on source names, so lookups agree; mutual induction over expressions and statements with corresponding local variables; induction on the call depth. | Props/Source.lean |
| C95 | The token contract as written conserves money | Model/TokenSource.lean is the file as a tree of the contract language; Model/Lang.lean compiles it, Model/Interp.lean runs it; Model/Token.lean is the direct transcription used by C92. | The interpreter is unfolded on the compiled tree, statement by statement, for arbitrary chain, state, arguments and data operations; the result is the direct transcription, to which C92 applies. | Props/TokenSource.lean |
| C96 | On a node, stored code stays genuine and every deployed contract keeps what its own functions keep | Model/Node.lean: the code of a transaction is looked up in the driver's state (Node.codeFor); `submission` is Model/Submission.lean with the interpreter of Model/Interp.lean as the deployed module, compiled by Model/Lang.lean and judged by Model/Ast.lean. | Invariant over histories (pending, cached and committed code is genuine) by induction, with C52's key-separation lemmas for interpreted code; then each transaction is shown to be code outside of the guarded contract (C91/C93), where a submission under its name is refused (C51) and a change of developer writes one record (C53). | Props/Node.lean |
| C97 | A submission deploys exactly the submitted source; nothing else changes code | Model/Node.lean, with Model/Submission.lean, Model/Proxy.lean (submitFn), Model/Executor.lean and Model/Interp.lean. | The successful run is taken apart (execute, attempt, the wrapped call, submit, set_contract); key separation keeps constructors and fees away from code records; set_contract writes only the five records of the name. | Props/Deploy.lean |
| C98 | A node behaves as if it ran the submitted sources | Model/Node.lean with Model/Interp.lean (compiled code) against Spec/SourceNode.lean with Spec/Source.lean (sources). | Invariant over the history: code records in cache agree with the disk, pending code records are genuine, the node runs the compiled forms of the current sources, and a restart would run those of the committed ones; each step keeps it by C97, C94 and the frame lemmas of C91. | Props/SourceNode.lean |
| C99 | Every event a node reports is declared in a contract source | Model/Interp.lean (construct, paramsOf, callEvent), Model/Runtime.lean (newLog, emit), Model/Node.lean; specification of declarations in Spec/EventDecl.lean. | Everything a deployed program does is shown to build declared events only (an invariant over the interpreter: each value that is an event is a declared one), then the general theorem on events of one transaction (C54) applies to the worlds of node histories. | Props/NodeEvents.lean |
| C100 | A node keeps nothing but storage between transactions | Model/Node.lean, Model/Interp.lean, Model/Executor.lean, Model/Runtime.lean. | Induction over the history: every transaction of a node consists of programs without handlers and without refused calls outside exported functions, so C38_history applies. | Props/NodeEvents.lean |
| C101 | Nodes that get the same requests agree, whatever their caches have lost and however often they were restarted | Model/Node.lean, Model/Interp.lean, Model/Executor.lean, Model/Driver.lean; requests and lives in Spec/NodeReplica.lean. | A relation between two nodes (same disk, same pending writes, caches that agree with what a read would find) is preserved by every step; contracts without listings compile to programs without listing actions (an attribute predicate carried through the interpreter), so Twins applies. | Props/NodeReplica.lean |
| C102 | Metered contract code finishes | Model/Interp.lean with the parameter `out`, Model/Meter.lean line, Model/Executor.lean, Model/Node.lean; Nested in Spec/Finish.lean. | Lockstep b p q: two programs do the same until b lines have been traced; the interpreter with two bounds and two errors yields programs in lockstep for as many lines as both bounds allow (induction on expressions, statements, loops and depth), and programs in lockstep for more lines than may be traced have the same run, because an accepted line counts and the count is capped. Loading: induction on the nesting of imports, which C103 bounds. | Props/Ground.lean |
| C103 | Imports of deployed contracts neither dangle nor go in circles | Model/Node.lean, Model/Interp.lean (topProg, Chain.top), Model/Runtime.lean import machinery; Imports, Grounded in Spec/Finish.lean. | A module that has been loaded is grounded: induction over the bounded loader, with restricted imports on and an invariant on the modules loaded in this transaction. A successful submission has run the top level of what it stores before it stored it; names are never reused, so groundedness of the others carries over. History invariant: groundedness of what is read now and of what is on disk, carried through all steps. | Props/Ground.lean |
| C104 | The stamps reported are enough, and more of them change nothing | Model/Meter.lean, Model/Executor.lean, Model/Interp.lean, Model/Node.lean; FundsFor, SameButFee in Spec/Stamps.lean. | The supply is only compared with the cost, which never falls: each API call that does not raise does the same with any supply not below its final cost or the former supply (Afforded); induction over Lockstep, whose programs never catch an exception; then set-up, funds check (monotone in the stamps, by the decimal laws), fee. | Props/Stamps.lean |
| C105 | A transaction depends only on the keys it reports as read; apart transactions commute | Model/Driver.lean, Model/Orm.lean, Model/Runtime.lean, Model/Executor.lean; Reads, stored, SameUnder, SameOutput in Spec/Reads.lean; CacheBlind in Spec/Replica.lean; Served in Props/Isolation.lean. | Relation between two runs: same process but for the driver; drivers that agree on K, provided nothing outside K has been recorded as read so far (Near, Beside, Both); every get and set records its key first, records only grow; a bind rule for it, then induction over programs; commutation from four applications and C32_restart. | Props/Reads.lean |
| C106 | Metering changes nothing but the fee | execute, attempt, checkFunds, setUp, chargeFee, Driver.set, Meter, Prog.run | the same process with another meter and other recorded reads is a simulation (Off): each API call that does not raise does the same without the meter; induction on the program; the fee by C29. | Props/Unmetered.lean |
| C107 | auto_commit is execute followed by commit | Model/Executor.lean (tryBlock, onError, chargeFee), Model/Driver.lean (commit, flushCache). Committable, DiskAlike, Tx.auto beside the theorem. | The attempt does not look at the flag, so both runs agree up to the end of the try block; commitLoop_gets says what a commit leaves on disk; case split on metering and on whether the balance was written by the transaction; both disks shown equal key by key. | Props/AutoCommit.lean |
| C108 | When pending work is written to disk, and when a node restarts, does not matter | Model/Driver.lean (commit, hardApply), Model/Driver.lean, Spec (evict), Model/Executor.lean; Spec/Batch.lean: Batched, Settleable; Spec/Replica.lean: CacheBlind, KeepsKeys. | Two drivers are abreast if each one's cache agrees with its disk and both find the same under plain keys. A transaction keeps this and gives the same outcome (the relational execution of C105, with equal finds in place of equal caches); a commit or application on either side keeps it because commitLoop_gets and applyWrites_gets say that the disk then shows what was found before; a restart keeps it because with nothing pending everything found comes from the disk, and because a transaction sees of the process only the driver and the context stack (execute_sameRun, as in C32). Induction over both schedules. | Props/Batch.lean |
| C109 | Transactions that are apart can be executed in any order | Model/Executor.lean, Model/Driver.lean; Spec/AnyOrder.lean: Executed, Trial, Undisturbing. | A trial transfers to every state with the same cache and disk that agrees on the keys it reads (the relational execution of C105, C32 for what remains in the process). Induction over the list, with what is pending under each key tracked as: untouched by all, or as left by the one that changes it; both descriptions do not depend on the order. | Props/AnyOrder.lean |
| C110 | Contracts that never list a hash depend only on what they report as read, and can be reordered | Model/Lang.lean, Model/Interp.lean, Model/Compiler.lean, Model/Executor.lean; Spec/LangApart.lean: NeverLists, RunsUnlisted. | The invariant framework of C93 (Closed, Allows, Ready) with the values that compiled code holds: no driver, no storage class, and no bound method named all or clear; compilation keeps attribute names. Then C105 and C109. | Props/LangApart.lean |

## 4. Trusted base

* **Lean 4.33.0's kernel.** `lake build` elaborates, the kernel checks; `decide +kernel` (used only in examples and refutation witnesses on literals) is evaluation by the kernel. No `native_decide`, no `bv_decide`.
* **Axioms.** Every theorem depends on a subset of `propext`, `Classical.choice`, `Quot.sound` (many on fewer). No axiom is declared here.
* **The reading of `/repo`** recorded in the model's comments. There is no extraction: that the definitions say what the Python does is a claim about translation, supported by citations per definition and by the experiments of `seeded/LOG.jsonl` (which test the theorems, not the translation).
* **The environment**: CPython ≤ 3.13 semantics (`visit_Num` dispatch), `datetime`, `decimal` (reference implementation `_pydecimal`, which the C library agrees with on everything modelled here except `**`; `**` follows libmpdec 2.5 and was compared with the C module on random operands), with the bridge's context in force in the thread that runs contracts (`setcontext` sets it only for the importing thread), `json` with the default separators given by the code, `random.Random` methods from Python 3.11.

## 5. What is modelled, file by file

| file (under `src/contracting`) | modelled in | not modelled |
|----|----|----|
| `stdlib/bridge/decimal.py` | `Model/Decimal`, `Model/Digits`, `Model/Power` | `**` with an exponent that is not whole (an arbitrary parameter), `float()`, non-ASCII digits, exponents beyond the C library's limits |
| `stdlib/bridge/time.py` | `Model/Time`, `Model/TimeText` | directives of `strptime` other than `%Y %m %d %H %M %S %f %%`, non-integer constructor arguments |
| `stdlib/bridge/random.py` | `Model/Runtime` (`draw…`) | the generator itself (arbitrary) |
| `stdlib/bridge/hashing.py`, `crypto.py` | `Model/Crypto` | SHA functions and libsodium (parameters) |
| `stdlib/bridge/imports.py` | `Model/Runtime`, `Model/Interface` | – |
| `stdlib/bridge/access.py` | `Model/Runtime` (`exportCall`) | – |
| `stdlib/bridge/orm.py`, `storage/orm.py` | `Model/Orm`, `Model/Runtime` | aliasing of one mutable value under two keys |
| `stdlib/env.py` | `Model/Interface` (names only) | – |
| `storage/encoder.py` | `Model/Encoder`, `Model/Json`, `Model/Value`, `Model/Convert` | recursion limits, lone surrogates |
| `storage/driver.py` | `Model/Driver`, `Model/DriverMore`, `Model/DiskListing`, `Model/Keys` | operating-system errors |
| `storage/hdf5.py` | `Model/Hdf5`, `Model/Lock` (threads, locks, time-outs) | HDF5's own file locks between processes; each attribute operation is one atomic ordered step |
| `storage/contract.py`, `contracts/submission.s.py` | `Model/Submission` | traced lines inside them |
| `compilation/*` | `Model/Ast`, `Model/Compiler` (one object over its lifetime) | `ast.parse`, `astor.to_source` (parameters of `Model/Submission`) |
| `execution/tracer.py` | `Model/Meter` | the memory probe's value (arbitrary) |
| `execution/runtime.py`, `module.py` | `Model/Runtime` | – |
| `execution/executor.py` | `Model/Executor` | the `driver=` argument, logging |
| `client.py` | `Model/Client`, `Model/Proxy`, `Model/DriverMore` | functions named like attributes of the proxy object |
| `/repo/tests/integration/test_contracts/currency.s.py` (the token that fees are paid in) | `Model/Token` (as `Prog`s), `Model/TokenSource` (as a tree of the compiler model and as a module of the language; C98 on run it from source) | – |
| the language of contract sources | `Model/Lang` (grammar, embedding into `Model/Ast`), `Model/Interp` (meaning as `Prog`s, module loading, calls between contracts through `Chain`) | comprehensions, slices, f-strings, several assignment targets, `*`/`**` arguments, keyword-only arguments, imports inside functions; operations on plain data are an arbitrary function; what is in the grammar but has no meaning here ends in `unmodelled` |
| a whole node: submission, code objects, deployed contracts | `Model/Node` | `marshal` and the parser/printer pair (parameters with a round-trip assumption) |
| `contracts/proxythis.py`, `thistest2.py` | covered as arbitrary `Prog`s | – |

Further simplifications: a mutable object stored under a key is shared only with the records of that same key (`Action.mutate`); trace events inside library code are separate `line false` actions before the library operation; CPython's limits on int/str conversion and recursion are exceptions a `Prog` may raise at any point rather than computed; file names that the operating system refuses (`''`, with `/`, 255 bytes or more) are not errors in the model except where the code itself checks; circular imports are loads with an empty body; exceptions cannot be caught in contract code (C40 forbids `try`), and code that does catch them (host modules) is out of scope except where a `..._refuted` theorem uses it.

## 6. Findings

Behaviour of the code that a user may not expect; each is proved by the theorem named, or noted as outside the model.

*Numbers.* Zero has two stored forms (C07). Texts such as `-1e-7` raise or change value in `neg_sci_not` (C06), so tiny negative float arguments make a call fail. `//` truncates towards zero (C77). `round(x, n)` returns a plain decimal that escapes the range (C78). `Timedelta * Timedelta` is meaningless (C46). Hash keys built from decimals use forms like `1E+3` (C81). `x ** 2` and `x * x` can differ in the last place, and `0 ** -1` is `10^29` (C89). Texts of timedeltas do not sort by length; `strptime` drops a `%z` offset, and its `%Z`, month and weekday names depend on the host (C87 and outside the model).

*Stored values.* Integers outside 64 bits inside lists of lists are not tagged (C10). A dict with reserved keys is read back as another object (C11). Tuples change type when evicted from the cache (C26). `h[1]` and `h["1"]` are one entry (C12). Names with `/`, `:` or `.` alias files and keys (C13, C15, C53). `convert_dict` leaves typed values in lists of lists, and in a list stored directly, in encoded form (C88). Keys of dicts that are not strings come back as strings (C08).

*Driver.* A deletion does not show in reads until it is committed, and a driver with `bypass_cache` never sees its own pending writes (C16, C17). `rollback(n)` does not undo (C20). Listings mix committed and pending entries (C22). `delete_contract`, `get_all_contract_state`, `get_contracts` work on bare prefixes (C68–C70). The `a` mode of HDF5 creates empty files on reads (outside the model). `keys_from_disk` lists bare group names. Readers take no lock: a reader can see None in the middle of an overwrite, and two commits can interleave (C84). `Hash.all`, tuples and in-place changes differ between a running node and one restarted from disk, so such nodes can disagree (C86).

*Transactions.* In-place changes to a cached list survive a failed transaction (C27). Negative stamps credit the sender (C29). The top level of a module runs at every load and unmetered (C30, C31). Native code without line events is not bounded by the tracer (C31). Exceptions that escape `execute` leave environment, loaded modules and seeds behind (C32, C38, C48, C75). A call refused at load time leaves its frame on the context stack, which later bypasses the owner check (C37, C38). `execute('os', 'system', ...)` reaches host functions (C62); the top level of the entry module can import any host module (C61); dotted imports run host package code even when refused (C50). Contracts with a dot in the name can never be loaded.

*Modes of `execute`.* With `auto_commit` the reported reads are always empty, a failed transaction throws away what earlier ones left pending, work is committed before it is paid for, and an account that deletes its own balance is charged differently (C107). `Hash.all()` shows entries that are not among the reported reads (C105). The limit on traced lines is swallowed by the library's own `try` blocks, so a metered run can succeed and yet differ from the unmetered one (C106). A deletion is seen only after the next commit, so nodes that commit at different moments disagree about deleted entries (C108).

*Contracts.* Constructors run with `ctx.this = 'submission'` and can submit or change developers as the signer (C51, C52). An owner given as a list is mutable through `importlib.owner_of`. A helper named `export`, or an own `__export`, replaces the wrapper (C42). `def __()` becomes the constructor (C42). `Hash(contract=...)` in annotated assignments or as a bare expression, and `Variable(name='__code__')`, write any key (C44, C45, C52). Return annotations, keyword-only arguments and dotted imports are not checked (C41, C76). `variables_for_contract` misses declarations and can crash (C67). `enforce_interface` accepts any predefined or imported name, raises for storage objects checked as functions, and never matches arguments given as a list (C79). A compiler object reused after a failed use renames more than a new one and keeps refusing with `lint=False` (C82).

*Client.* `now` sticks after the first call; several clients share the default environment (C63). A failed `run_private_function` leaves protection off (C59). Defaults of parameters never apply through proxies, some parameter names are swallowed, and a failing call with `return_full_output` raises a dict, i.e. a `TypeError` (C80). A contract function named `now`, `name` or `signer` overwrites the proxy's attribute (outside the model).

*Cryptography.* `key_is_valid` accepts some texts that are not keys; hashing takes any hexadecimal text as bytes, so two different texts hash alike (C56, C57). `crypto.verify` needs `nacl.signing` to be imported elsewhere (C74). Storage names stop being attributes of the proxy once they are committed (C83).
