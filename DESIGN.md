# Formal model of pymtl3-mem (pipelined blocking cache) in Lean 4

## 1. Layers of the model

### 1.1 The code

| file (lean/Verif/) | models | /repo source |
|---|---|---|
| `Basic` | parameters (all widths are variables), message and address structs, bit helpers | CacheDerivedParams.py, cacheStructs.py, mem_ifcs/MemMsg.py (fields only) |
| `Units` | leaf hardware units, bit exact | units/*.py, sram/*.py |
| `RTL` | the cycle-accurate cache: every register of Ctrl and Dpath, every combinational table, one `St.step` per clock edge, `St.out` for the ports | BlockingCacheCtrlRTL.py, BlockingCacheDpathRTL.py, BlockingCacheRTL.py |
| `SramAny` | SRAMs whose output is unspecified when they are not read; the Verilog SRAM of brg_gf14_sram_generic_synopsys.v without hard macros |
| `NetUnits`, `Net` | the cache as a netlist: 128 wires, each with the equation of the update block, lambda or connection that drives it, grouped into 93 blocks; codes, packed tag words, packed control tables, active-low SRAM pins, messages with flat addresses and all fields | BlockingCacheCtrlRTL.py, BlockingCacheDpathRTL.py, units/*.py, sram/*.py, mem_ifcs/MemMsg.py |
| `Sched`, `NetSys` | running update blocks in any order; the system of caches and memory on the netlist | (PyMTL3 scheduling), test/MemoryCL.py |
| `Mem`, `MemCL` | memory execution of one request; the multi-port memory with queues | test/MemoryCL.py |
| `Sys` | any number of caches, each on its own port of one memory, adversarial environment; `Start`, `Step`, `Run`, events | blocking_cache/test/BlockingCacheRTL_test.py, MultiCache_test.py, test/sim_utils.py (harness) |
| `Hetero` | caches with different parameters on one memory (steps are those of `Sys`) | test/sim_utils.py (`MultiCache`: per-cache size and associativity) |
| `ResetSys` | the same with caches reset one by one | BlockingCacheCtrlRTL.py (registers with reset), counters.py, registers.py |
| `ResetWave` | ports of a cache since its last reset | as `ResetNet` |
| `SpecEnv`, `SpecEnvNet`, `SpecFence`, `SpecMemPorts` | a cache, or caches of any shapes, among agents that change memory at will | test/sim_utils.py:283-314, test/MemoryCL.py:62-104 |
| `ResetNet` | the same with caches reset one by one, on the wires | as `ResetSys` and `Net` |
| `HetNet` | the same at the level of wires: one netlist per cache | test/sim_utils.py (`MultiCache`) |
| `FL` | `HitMissTracker`, `ModelCache`, `AMO_FUNS`, `gen_req_resp` | BlockingCacheFL.py, test/sim_utils.py |
| `Mux` | the chained `DataSelectMux` (alternative of the one instantiated) | units/muxes.py |
| `Derived` | derivation of all widths from the constructor arguments | CacheDerivedParams.py |
| `ProcModel`, `ProcLoop` | processor model in front of a cache, its combinational loop | test/ProcModel.py |
| `Multicore` | multicore driver (order and in-flight counters, one source per core) | test/MulticoreModel.py |
| `MultiTests` | the four programs of the multi-cache tests | blocking_cache/test/MultiCacheTestCases.py |
| `SingleTests` | the directed single-cache tests as data | blocking_cache/test/GenericTestCases.py, AmoTests.py, InvFlushTests.py, OtherCiferTests.py |
| `RandGen` | generators of the random and property-based tests, request half of the FL transaction list | blocking_cache/test/HypothesisTest.py, RandomTestCases.py, test/sim_utils.py |
| `UnitTests` | the vectors of the unit tests, evaluated on the model: all agree but the two with `len_ == 3` (they predate that encoding) and the SRAM vectors (written for enables per byte) | blocking_cache/units/tests/*.py, sram/test/SramRTL_test.py |
| `PropsCounter` | the two counters with all ports | blocking_cache/units/counters.py |
| `PropsSeq`, `MLive`, `ProcFair` | infinite executions and fairness of the benches with and without processor models | test/sim_utils.py, test/MulticoreModel.py, test/ProcModel.py |

The environment of the RTL is adversarial: every cycle it freely chooses the
request (only offered when the cache says ready, as the en/rdy protocol
demands), response-ready, memory-request-ready, when memory executes the next
queued request and when it delivers the next response.  Unused message wires
carry arbitrary garbage.  SRAMs and registers hold arbitrary values before
reset.

### 1.2 The specifications (read these to understand the theorems)

`Spec` (flat byte memory, AMO functions, valid requests), `SpecLru` (LRU
directory), `SpecSeg` (memory traffic of one request), `SpecMsg` (which messages count), `SpecData` (messages without data), `SpecTime` (response time), the first sections of `PropsWave` (waveforms), `HetWave`, `ResetWave` and `PropsResetInf` (executions with ports), `SpecConf` (causes of memory traffic), `SpecDirty`
(write-backs), `SpecAmo` (atomic sequences on a word), `SpecShared` and
`SpecShared2` (software coherence disciplines), `SpecDet` (synchronised
programs), `SpecUnits` (bytes and words of a bit vector, last written value of
an SRAM), `SpecModel` (the word-level memory model), `SpecDisc`, `SpecLin`, `SpecLock`, `SpecBarrier`, `SpecLockLive`, `SpecTicket`, `SpecTicketData`, `SpecReduce`, `SpecCoh`, `SpecAir`, `SpecPass`, `SpecReset` (word machine with crashes)
(release/acquire discipline, linearisability, spin lock).  None of them mentions the pipeline, the tag array or the MSHR.

### 1.3 Proof devices (not trusted, not part of any statement)

* `L1`: event-level cache (arrays, no pipeline).  `SimPhase`, `Sim*`: phase
  invariant `RI` and forward simulation RTL → `L1`, for every cycle of every
  phase (flow, request, eviction second pass, wait, answer, refill, INV loop,
  FLUSH loop, initialisation).  `SimMain`, `ESys`: composition with memory and
  several caches (`refine`).
* `Coh`, `Op`, `Eqv`, `Bytes`, `SubWord`, `Addr`, `Uniq`: one request on cache
  and memory agrees with the flat memory.  `Log`, `Segs`, `Trace`, `Fin`: the
  message log of a cache is a function of the accepted requests.
* `Lru`, `FLTrack`: directory = LRU lists = FL tracker.
* `Life`, `PerCache`, `Phases`, `Blocking`: per-request windows; `Live`:
  ranking function; `Dirty`, `Word`: per-word ownership and dirtiness;
  `Drf`, `Drf2` (C18), `Drop`, `Drf3`, `Drf4` (C42), `Det` (C43).
* `NetUnitsEq`, `NetEnc`, `NetSim`, `NetVals`, `NetSched`: the settled wires of
  the netlist have the values of the functions of `RTL`; the wires are layered.
* `WArr`, `WSim`: forward simulation of `L1` by the word-level model (C64); `WTrace`,
  `WDisc`: invariant of the discipline (C65).
* `Exec`, `DriveK`: executable environments for concrete executions.

## 2. Per-property plan

Every property has its theorem(s) in a `Props*` (or the named) module, with
examples that meet the hypotheses beside them.  Theorem names start with the
property id; the exact list is in MANIFEST.json.

| id | modelled | proof |
|---|---|---|
| C01 | one RTL cache + in-order memory, any timing | refinement RTL → `L1` → flat memory (coherence invariant per bit) |
| C02 | any number of caches | count and order of responses from the message log; `Life` windows for the fields |
| C03 | any number of caches; FL tracker | directory of `L1` = LRU lists = tracker, by induction over requests |
| C04, C38 | RTL from an arbitrary register/SRAM state | induction over the INIT counter |
| C05 | RTL output tables in every state | case analysis, no invariant needed |
| C06, C13, C16, C17 | any number of caches | consequences of the phase invariant and of `Uniq` |
| C07, C08, C10, C35 | any number of caches | dirty words as a function of the history (`Dirty`); C01 for the values |
| C09, C11 | any number of caches | request windows (`Life`): what is sent, executed and returned between acceptance and the next acceptance |
| C12 | two executions with the same requests | corollary of C01/C02/C03 |
| C14 | RTL with a reordering memory | concrete execution evaluated by the kernel (existence claim) |
| C15 | any number of caches, finite and infinite executions | `mu` (`Live`) is a ranking function: it never increases without a new request and decreases in each clock edge in which the environment does its part |
| C18, C19 | any number of caches, arbitrary programs | per-word invariant over the global history (`Drf`, `Drf2`); discipline stated on acceptance/answer events |
| C20 | any number of caches | executed AMOs form a sequential history of the word; they are exactly the answered ones, per cache in order |
| C21, C22, C24, C25, C26, C29, C39 | leaf units, all widths | bit-level lemmas (`SubWord`, `PropsUnits`) |
| C23 | both muxes | induction along the chain; exact condition and a counterexample for AMO outputs |
| C27 | address bitstruct, FL slicing | arithmetic |
| C28 | multi-port memory, exceptions included | queue invariant, serialisation |
| C30, C31 | FL model | induction over request sequences; tracker invariant; the KeyError cases are stated |
| C32 | any number of caches | corollary of the directory = LRU theorem |
| C33, C34 | RTL | **false of the code**: counterexample executions, and the cause for all inputs (C33_cause).  The true part is C01 (accesses of at most 4 bytes, no WRITE_INIT); C56 bounds the damage of WRITE_INIT |
| C36, C41 | processor model + caches | counter invariant; fixpoint of the combinational loop |
| C37 | multicore driver + caches | counter invariant relating sent and answered requests of each order (32-bit wrap included) |
| C40 | parameter derivation | arithmetic on `clog2` |
| C42 | any number of caches | as C18 with publication by FLUSH, AMO or direct-mapped eviction and copies dropped by INV, AMO or eviction (`Drop`, `Drf3`, `Drf4`) |
| C43 | multicore driver + caches | C37 orders + C42 ⇒ each response is that of the sequential program; verified checker for concrete programs |
| C44, C45 | tag check and tag update units | bit-level |
| C46 | `expectSeq` = flat memory + LRU specification + echoed fields; directed tests as data (`SingleTests.lean`) | C01, C02, C03 combined; prefix monotonicity; termination from C15; `decide +kernel` evaluates the specification (not the RTL) on the 60 lists |
| C47 | infinite executions of the driver (`MLive.lean`), fairness of ports, memory and sources | a clock edge of all caches gives a helpful edge of each (C15); with the order counter standing still every core comes to rest; the counter moves when the in-flight counter is 0 (C37 invariant); converse from C37 |
| C48 | both counters of units/counters.py with all their ports, any history | induction over the history |
| C49 | processor models inside infinite executions of both benches (`ProcFair.lean`), fairness at the sink | with nothing in flight M2 is not blocking and response-ready is not looked at, so each bench step is a step of the open system and conversely; then C46, C47 |
| C50 | generators of HypothesisTest.py and RandomTestCases.py with draws as parameters (`RandGen.lean`), request messages of the FL transaction list | drawn requests are valid (bit masks align); C30 for the FL model, an execution from `bench_fair` identifies its list with `expectSeq`; C46, C49 for the RTL |
| C51 | netlist of `Net.lean`: arbitrary registers, inputs, wire values and block orders | each wire equation reads only wires of lower levels, so settled valuations are unique and every schedule with `levels` rounds reaches them; invariant on way numbers over all moments of a simulation |
| C52 | caches on a shared memory at the level of wires, messages and block schedules | each settled wire equals the function of `RTL.lean` (`Vals`); bisimulation between netlist system and `Sys`; C01–C03 restated on messages |
| C53 | single-cache system, arbitrary accepted requests; lines harmed by malformed requests (`Harms`) | coherence (`Coh`) restricted to the unharmed lines is kept by every request; flat memory executes the valid requests only; concrete run for the harm |
| C54 | same system; `implStep`, the flat-memory meaning of all reads and of writes and AMOs that stay in the words they mark dirty | write mask, replicator and select mux computed for every length and offset; generalised store lemma; `implStep = flatStep` on valid requests.  AMOs with a length other than a word make the Python test memory raise; they are treated as malformed |
| C55 | single-cache system, valid requests, arbitrary intermediate states; `IsPast`, `Durable` | the executed part of the message log (`Done`) only grows; along the log every word has a monotone time stamp (`Stamps`), by induction over requests from the three stages of a word during one request (`op_hist`): old, specification before, specification after |
| C56 | single-cache system with WRITE_INIT accepted (`InitRun`); lines harmed (`HarmsI`) | the simulation relation of the cycle model is extended by the two WRITE_INIT cycles (`SimPhase`, `InitRefine`): the log is that of `opsI`, in which a WRITE_INIT writes an unconstrained way and dirty mask (hints); coherence with the WRITE_INIT sets masked out (`InitIso`) is kept by every request |
| C57 | as C56; `warmMem`, the memory a warmed-up cache shows | right after reset way and dirty bits a WRITE_INIT finds are known (`HintsOk`); the warmed-up cache is coherent with `warmMem`, and runs on two memories that differ only in lines never fetched are the same (`OffLines`); C01 machinery on `warmMem` |
| C58 | as C56; directed tests as data | hints determined, so the log is a function of memory and requests; `decide +kernel` evaluates the event-level machine (not the RTL) on the 15 lists |
| C59 | system whose caches have just been reset with arbitrary port queues (`StaleStart`, `Drain`, `Resetting`) | shadow state that ignores the memory-response register while the tag arrays are initialised (`next_withEn`), simulation of the run by one from `Start`; C55 for the memory; `decide +kernel` run for the sharp limit |
| C60 | executions with ready ports counted per edge (`Ticks`, `SpecTiming.lean`); hits by the directory of `SpecLru.lean` | the simulation relation gives what is in M1 and M2 after an acceptance (`accept_inM1`, `after_accept`); hit and clean-word status of the cycle model read off the event-level machine; induction over `Stream` |
| C61 | same, acceptances of misses and AMOs, deliveries of memory responses | write-back and fetch of the two passes in M1 (`InM1.info`, `Again.adv`); refill and replay phases step by step (`deliver`, `refill_step`, `replay_point`) |
| C62 | executions in which the cache stays closed (`Held`), with the edges that wait for memory counted | remaining-edges function on the phases of invalidation and flush (`Left`, `left_step`), induction over `Held` |
| C63 | memory requests between the acceptance of a request and its answer, against the stores and sends seen before (`LineUnsaved`, `lruVictim` in SpecTraffic.lean) | dirty bits of the event machine = unsaved words (`dirty_inv`, `kept_inv`), directory = LRU list, messages of one window (`window_msgs`) |
| C64 | caches with different parameters on one memory (`HSys`, Hetero.lean; a step is a step of the one-cache system on the shared memory) against the word-level machine `WM` (SpecModel.lean) | forward simulation of the event machine `ESys` (WSim.lean), array relation word by word (WArr.lean) |
| C65 | release/acquire discipline per word on the visible history (`SpecDisc.lean`) | invariant on the word machine of C64 (`DInv`, WDisc.lean): one active cache, ghost value of the word, up-to-date copies agree with it; then C64 |
| C66 | one sequence of atomic operations explains every prefix of the visible history (`Linearised`, SpecLin.lean) | invariant `LInv` on the word machine: the word is never dirty, operations take effect when performed; then C64 |
| C67 | spin lock protocol on the visible history (`LockProtocol`, SpecLock.lean) | C66 gives mutual exclusion (`one_holder`), which gives the discipline of C65 for the protected words |
| C68 | the cache with SRAMs that output anything after a cycle in which they are not read (`SramAny`: `St.stepJ`), and with the behavioural branch of the Verilog SRAM (`SramV`, `St.stepV`) | simulation relation `Twin` (SramSim): the SRAM output registers and the stall-engine registers may differ exactly where no later stage looks at them |
| C69 | the same cache; `SpecMsg`: which inputs and outputs mean something | two-run simulation: `Fresh`/`Boot` while the cache initialises itself (the SRAM contents are overwritten line by line), then `Mute` (registers filled from a port while `en` was low; tags of invalid clean entries) composed with `Twin` of C68 |
| C70 | the same cache and systems; `SpecData`: messages without their data | `next_blank`: forgetting the data before a clock edge or after it is the same; then induction on histories and executions |
| C71 | the cache alone, any environment that obeys the port rules (`SpecTime`: `Plays`, `Prompt`, `helped`, `respBound`) | a ranking function `nu` that decreases at every edge on which memory does not let the cache wait; induction on the history with the simulation relation; concrete runs that reach the bounds |
| C72 | `HitMissTracker` with `nbanks > 0` (`FLBank.lean`: `Cfg.banked`) | the banked tracker's index and tag are those of the unbanked one at the address without bank bits; then C31's stack-distance theorem |
| C73 | the bitstructs of mem_ifcs/MemMsg.py for all widths, their bits and strings, `decode_type` (`MsgFmt.lean`) | appending and extracting bit vectors; fixed-width hexadecimal is injective (evaluating the string gives the value back) |
| C74 | memory traffic and its causes (`SpecConf`: `AskedFor`, `MayChange`), any requests but WRITE_INIT | invariant of the event-level system: a dirty entry's line was addressed by an accepted WRITE; carried over by the refinement |
| C75 | `line_trace` of control unit and cache as strings, on the netlist of C51 (`LineTrace`) | codes of FSM and transactions are closed under all blocks and edges; decoding by columns; finite code tables by complete case analysis |
| C76 | waveforms of the netlist of C51 (`PropsWave`: `Cyc`, `Waves`, `Fair`, `PromptW`, `helpedW`) | each waveform is one of the cycle model (`sim`), then C71; the order of responses by an invariant on the messages still to be sent; every run of the cycle model is a waveform (`ExWave`) |
| C77 | `replace_sram` on lines of text, the macro selection of the Verilog wrapper, the SRAM sizes of a configuration (`Translate`, with `Config` of C40) | the texts start with a letter that occurs only once; digits are injective; arithmetic on powers of two |
| C78 | one sequence of accesses to a word explains the responses of all caches (`Explains`, SpecCoh.lean), for histories whose writes to the word are whole; a concrete history with a byte write has none | invariant `CI` on the word machine: the accesses in memory order, those of each dirty copy not yet saved, and for each clean copy the point of the order it shows; then C64 |
| C79 | which bytes may be found at an address (`Could`, SpecAir.lean) | invariant `AirInv` on the word machine; then C64 |
| C80 | `Explains`, `Durable`, `storesOf` (SpecCoh.lean) | the invariant of C78 kept between two points of one execution: the common sequence only grows | 
| C81 | `Shows`, `perform`, `othersRequests` (SpecPass.lean), `Could` (SpecAir.lean) | effect view of the word machine (WEff.lean), invariants on flag provenance and on the copies of the data word; then C64. Concrete executions show FLUSH and INV are needed |
| C82 | `HetNet`: one netlist per cache with its own parameters; events are messages on the ports (`wvisible`) | `HNRun` refines `HetRun` node by node (C52's step refinement), both directions; then C64-C67, C78-C81 |
| C83 | `Lab`, `wave`, `HLInf` (first section of HetWave.lean), waveforms of C76 | projection of an execution on one cache is a fair waveform; then C76. `fair_extension` (ExHetWave.lean) continues any execution fairly |
| C84 | `RSys`, `RStep`: per-cache reset steps (ResetSys.lean); crash machine `CRun`, `Recovers` (SpecReset.lean) | simulation by a system with one cache per life (ResetSim.lean, generalises C59), then C65, C66, C78, C79; refinement of the crash machine (ResetModel.lean); invariant for one word through the lives (ResetLife.lean). Concrete run with messages in flight at the reset in ExResetSys.lean |
| C85 | `RNSys`, `RNStep`: `RSys` with the netlist (ResetNet.lean) | step-by-step refinement of `RStep` in both directions (the block schedule settles the wires in cycles with reset as in all others), then C84. Concrete run lifted from ExResetSys.lean |
| C86 | labelled steps of `RNSys` with the ports in each cycle; `life`: the waveform of a cache since its last reset (ResetWave.lean, PropsResetInf.lean) | invariant: a shadow cache freshly reset shows the same ports (C59's `quietEdge`), then C76 on the shadow; infinite executions as for C83. The late responses and the messages without enable are normalised away, because the shadow does not see them. Concrete infinite execution continued from ExResetSys.lean |
| C87 | `ORun D`: own steps of the one-cache system plus steps that change memory arbitrarily outside the words `D`; `OHRun D`: the same for caches of any shapes (SpecEnv.lean, SpecEnvNet.lean) | simulation by a system of equal caches: each change of memory is made by a fresh cache that swaps the changed words one by one (Env.lean, using liveness C15 to build its execution); then the theorems for systems of equal caches. `C87_every_cache`, `C87_wires`: each cache of each system is such a cache |
| C88 | as C87; `FencedOff`: the words the others address no line of with a WRITE and no byte of with an atomic operation (SpecFence.lean) | C74 (`exec_cause`) for a cache among other agents gives that the others change only addressed bytes; then C87 with these words as `D`. Concrete execution with malformed requests in ExFence.lean |
| C89 | `MemHist` of C28; `Changes`, `LooksAt`, `alone`, `Undisturbed`, `WritesFirst` (SpecMemPorts.lean) | induction on the serial log of C28: executing a request changes only the bytes `Changes` names and depends only on the bytes `LooksAt` names; the message lists of test/MemoryCL_test.py (but for its AMO list, which ends in the exception of C28, and the seeded random list) checked by the kernel for all twenty pages in ExMemPorts.lean, for all contents and timings by the theorems |
| C90 | barrier protocol on the visible history (`Passed`, `BarrierProtocol`, SpecBarrier.lean) | C66 orders the additions to the counter; between additions of 1 it grows by one (`levels`), so seeing `m * n` means `m * n` arrivals, and no participant can have more than `m` before somebody sees it (`come`): all have come; this gives the discipline of C65 for the shared words; `BarrierNet` carries it to the wires by C82; a complete two-processor execution of the protocol is checked in ExBarrier.lean |
| C91 | `OneByOne`, `HeldBetween` (SpecLockLive.lean) with `LockProtocol` of C67, infinite executions `HLInf` of C83 | in the order of C66, the last success before a later attempt is an operation that is eventually answered (C83), and at that moment its processor holds the lock; if that was before the given time it was given back and the lock is free again; `C91_waiting_needed` is a run in which the lock is lost because a processor does not wait |
| C92 | `BarrierProtocol` of C90, infinite executions of C83 | an operation asked for after all arrivals are answered comes after them in the order of C66, so it finds at least `m * n`; C83 gives the answers |
| C93 | `TicketProtocol`, `HasTurn`, `drawn`, `given` (SpecTicket.lean) on the history; two words, each with the order of C66 | induction on the order of the operations on the second word: its value is the number of tickets given back, these are exactly the smallest ones, and nobody has seen a larger value; the tickets are the positions in the order of the first word |
| C94 | `TurnBetween` (SpecTicket.lean), infinite executions `HLInf` of C83 | induction on the number of the ticket: the ticket before has been drawn, has its turn and is given back, so the next answered look finds the number |
| C95 | `TicketGuard` (SpecTicketData.lean) with `TicketProtocol` of C93 | mutual exclusion of C93 gives the discipline of C65: between two accesses of different processors the first gave its ticket back, so its stores are published before the INV of the second |
| C96 | `operands`, `OnlyOp`, `WorkCounter`, `AllAnswered`, `got` (SpecReduce.lean) on the history | when all is answered, the sequence of C66 is a permutation of the operations asked for (counting per cache), and all types but SWAP may be reordered; for work counters the number returned is the position in the sequence |

Properties that cannot be expressed in the model: none of the listed ones.
Not listed because a model cannot express them: correctness of the Verilog
translation, area/timing, behaviour of the PyMTL3 simulator.

## 3. Simplifications (each is also noted at the definition)

* `RTL.lean` evaluates each signal as a function in dependency order, with tag
  words, control rows and messages as records.  `Net.lean` does not: there the
  update blocks run in any order (C51) on codes, packed words and messages, and
  C52 proves the two equivalent.  The one cyclic path between components
  (ProcModel) is treated separately (C41).
* `Net.lean`: a one-bit wire is a `Bool`; an output of a block is computed in one
  piece from the wires before the block (the source reads its own outputs back
  only after writing them); lambdas in loops capture the loop variable of their
  iteration (PyMTL3 reads the closure when the connection is made); registers of
  the PyMTL3 library are modelled by `regEn`, `regRst`, `regEnRst`; structs on
  wires stay records except where the source converts them to or from bits.
* x-values do not exist (PyMTL3 has none); the unused `wr_mask` field of
  processor-side messages is omitted.
* Associativity is 1 or 2 (the code's replacement policy supports no other),
  data width 32, 64 or 128 (the code asserts or hardcodes this), at least two
  words per line and two sets.
* The delay pipes, stall units and queues of the PyMTL3 standard library are
  modelled as unbounded queues with arbitrary delay: more behaviours than the
  library.  `MagicMemoryFL` is modelled as a flat byte memory.
* All caches of a multi-cache system `Sys` have the same parameters; `Hetero` (C64–C67)
  lifts this.
* WRITE_INIT requests are excluded from the executions `Run` (they corrupt other
  addresses, C34); the executions `InitRun` of C34 and C56–C58 include them.

## 4. Not modelled

PyMTL3 itself (scheduling, Bits/bitstruct library - modelled as `BitVec`),
Verilog translation and `translate.py` (except `replace_sram`, C77), the foundry's hard SRAM macros (C68 covers any that
writes as it should and outputs the addressed word after a read), line tracing of the units and test benches (message strings: C73, the cache: C75), `conftest.py`, the
random number sources of the test generators (their draws are parameters, C50).

## 5. Trusted base

Lean 4.33.0's kernel.  Axioms used by the theorems: `propext`,
`Classical.choice`, `Quot.sound` only (checked with `#print axioms`); no axioms
of our own, no compiled evaluation.  Concrete executions are evaluated by the
kernel (`decide +kernel` or `rfl`).  Beyond that: the faithfulness of the model
to the Python source, which is by inspection - each definition cites file and
lines - and of the specification files of section 1.2 to the English
properties.

## 6. Testing the theorems

/verif/seeded/LOG.jsonl lists edits of the model (about 530: RTL tables and
registers, units, memory, FL model, drivers) and the theorems that stopped
proving.  Edits that survived are explained there: they are either equivalent
(no claim became false) or led to a tightened theorem.
