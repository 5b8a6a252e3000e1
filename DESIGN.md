# Formal model of MuKnSys/signing-tool in Lean 4

## Layout

* `lean/Verif/Lib/`   mathematics with no counterpart in the code: primality of the two secp256k1 primes,
  the curve group (Mathlib's Weierstrass group law), its order, byte strings, list lemmas.
* `lean/Verif/Spec/`  small specifications, independent of the model (curve equation, big-endian value, ...).
* `lean/Verif/Model/` the model of the code, function by function; each definition cites file and lines in /repo.
* `lean/Verif/Proofs/` helper lemmas about the model.
* `lean/Verif/Props/` the property theorems (one section per property id), each followed by a non-vacuity example.

`properties.jsonl` is generated by `tools/mkprops.py`; `MANIFEST.json` maps properties to theorem names;
`seeded/LOG.jsonl` records the mutation experiments.

## Trusted base

* Lean's kernel, and the axioms `propext`, `Classical.choice`, `Quot.sound` at most; the list per theorem is at the end of
  this file. No axiom is added; no `sorry`, `admit`, `native_decide`, `bv_decide`, `implemented_by` or `unsafe`.
* The reading of the Go/Lisp source: the code is not run; each definition cites the lines it models.
* External behaviour, modelled as described here, since the dependencies are not in /repo:
  * `math/big`: exact integers; `Mod` is Euclidean; `Exp(x,e,m)` is `x^e mod m`; `Bytes` is the minimal
    big-endian encoding of the absolute value; `SetBytes` its inverse; `Cmp` compares; `ModInverse` the inverse mod a prime;
    `SetString(s, 16)` reads an optional sign and hex digits.
  * `btcec` `Add`, `ScalarMult`, `ScalarBaseMult`: affine secp256k1 arithmetic with (0,0) for the identity.
    The model computes it over `Int` with the chord-and-tangent formulas and double-and-add; btcec uses Jacobian coordinates.
  * Keccak256 (and the share hash of kyber): an arbitrary function of the bytes; theorems hold for every such function.
    Some need that its values have 32 bytes. C121 shows that Keccak-256, written piece by piece as the code does, is such a function; the
    permutation is taken from the standard (`Spec/Keccak`), and `Props/RepoTests` checks it on the values in the repository.
  * AES-CTR keyed from `crypto/rand`: an arbitrary stream of bytes per key. A failing system generator is not modelled.
  * kyber `random.Int`, `share.PubPoly.Eval`, `share.RecoverSecret`: draw until in range; evaluation at i+1; Lagrange
    interpolation at 0 of the first T shares by index. The sort in `RecoverSecret` is stable here; for shares with equal
    indices Go's order is unspecified.
  * kyber rabin DKG/VSS: not modelled except for C116 to C120 and C122 to C125. It is a parameter `Kyb` with arbitrary state and arbitrary results. C60, C76, C82,
    C87 and C92 (`C92_outcome`) assume that its methods do not panic on complete messages (`Calm`), C65, C72, C73, C75, C80, C81, C88 and C91 that its results are
    consistent shares, and C99 to C105 that among the honest members that take part it accepts what another one made, leaves the others out of
    QUAL and ends with shares of one key (`Generates` in `Spec/Generation`). C116 proves `Generates` of a model of the library (`Rabin`), which is
    written from memory of its published version 3 and not checked against its source; C117 to C120, C123 to C125 and `C122` where it speaks of kyber's generators are about the same model, and nothing else depends on it.
    C118 and C119 show what of C60, C65, C75, C76, C82, C86 and C87 is left without assumptions about the generators if they are as in this model.
    In this model justifications, complaints about commitments and reconstructions change nothing and are answered by an error, while kyber acts on them; and a complaint about an own deal, which kyber answers by a justification that discloses the deal, gives an error. So where C116 (`C116_fits`), C118, C119
    and C122 speak of anything that others may send, nothing is shown about what kyber does on receiving messages of these kinds. C117 (`Ask.Plain`) and C125 (`Plain`) exclude them by a hypothesis.
  * gob, RPC transport, OS files: value-preserving. JSON: `encoding/json` decodes the text that s2j writes to the same
    tree; cl-json maps lists to arrays, strings to strings, symbols to strings and T to true.
  * `sort.Slice`: any function that returns a permutation without descents (`SortContract`). Map iteration: any order.
  * `time.Parse` is a parameter of the theorems about the program; with the layout of RFC 3339 it is modelled in `TimeParse` after Go 1.18 (the version in `go.mod`; its source is not at hand here), without the location of the result, which nothing looks at. `bufio.Scanner` with `ScanWords`: as in `Scan`, which the theorems about requests take the words from.
  * Go runtime: a region that holds one mutex is one atomic step, and so is one channel operation; channels are FIFO queues
    with their capacity; a crash is the outcome `.panic`, a step that is not possible now (it blocks or sleeps) `.err`.
    (C112 and C113 are about the mutexes themselves. That a region is one step leaves out that the sends in it may alternate with those
    of other runs to other queues, and that it draws random numbers between others; the stream and the order in which messages arrive
    are arbitrary.) The scheduler picks any possible step. The clock is monotonic; a sleep ends at any moment not before its end.

## What is modelled

| model | code | remarks |
|-------|------|---------|
| `BigInt`, `Scalar`, `Field`, `Btcec`, `Point`, `Stream` | `secp256k1/{scalar,field,point,curve}.go` | values; nil and foreign points explicit where a function can get them. Not modelled: foreign scalar types, constant-time behaviour |
| `ScalarHeap` | `scalar.go` | the same operations on a heap of mutable integers, for aliasing |
| `PointHeap` | `point.go` | the same operations on objects with pointers to mutable field elements, for aliasing |
| `Text` | `String`, sizes and conversions in `secp256k1` | `%x` of an integer as `fmt` prints it |
| `PublicKey` | `public_key.go`, `utils.go` | all methods except `MarshalText` wrappers of encoding libraries |
| `Schnorr` | `ethschnorr.go` | all |
| `Dss` | `ethdss.go` | all; the polynomials are determined by their commitments |
| `Csprng` | `csprng.go` | all |
| `Layout` | `layout/*.go`, `base/base.go`, `keygen.go`, `util/file.go` (reading), `util/prim.go` (`unique`), `hostcomp.lisp` | a directory is a partial function from names to contents |
| `Locks` | all functions of `siggy/src` that use mutexes, `csprng.go` | only the order of locking, unlocking, accesses to shared data and waiting; conditions and loops are arbitrary |
| `TimeParse` | Go's `time.Parse` as called at `signode.go:22` and `run_sig.go:28` | only the layout of RFC 3339; a text is a list of characters; times are nanoseconds since 1970 without limit |
| `Hostcomp` | `hostcomp/*.lisp`, `s2j/*.lisp`, reading config.out | a file is the list of the expressions or values in it |
| `Dto` | `dkg_dto.go`, `dss_dto.go`, `longterm_db.go` | kyber pointers non-nil, except those that C60 is about |
| `Firewall` | `firewall.go`, `msg.go` | all; nested maps are one map indexed by (protocol, guest, run id) |
| `Prot` | `prot.go` for one run | stages, buffers, pause, abandon, sending; the functions of a protocol are arbitrary |
| `Dkg` | `dkg.go`, `dss.go` | the stages as instances of `Prot`. A nil document panics in the first signing stage instead of the next |
| `Rabin` | kyber's `share/dkg/rabin` as `dkg.go:21-132` calls it | as far as it goes without complaints; signatures, encryption, hashes and random numbers are parameters. Whether `SetTimeout` reaches the responses of the own dealer is a parameter too |
| `Kdats` | the tables of `dss.go` that runs share (`dss_kdat_args`, `dss_kdats`) | numbers stand for pointers; calls for any runs in any order; after its clean-up a run is not called |
| `Registry` | `prot.go` registry and termination observers | any interleaving; a caller may go on before its call is over, which only adds histories |
| `Node` | firewall, queues, consumers, registry and `runner.go` together | any interleaving; what a run does inside its stages is in `Prot` |
| `Tables` | documents (`dss.go`) and outputs (`prot.go`) | every call holds the table's lock, so histories are sequences |
| `NetCaller` | `net_caller.go` for one peer | dialling and calls succeed or fail arbitrarily |
| `NetTime` | `net_caller.go` for one peer, with a clock | sleeps, dialling and calls with their times; without the clock it is `NetCaller` (C108) |
| `Network` | processes of `Program` or `KeyProgram` with the queues of `NetCaller` between them, `SigServer.Receive` | any interleaving of all processes, queues and connectors; anybody else may call too. Whether a call fails is arbitrary, but one that succeeds has reached a process that listens on the address |
| `Signode` | `run_longterm.go`, `run_sig.go`, run ids of `runner.go` | what a protocol run does to the outputs is arbitrary |
| `Program` | `Node`, `Dkg`, `Tables`, `run_sig.go` and `runner.go` together: the program in the mode that signs | any interleaving. Each iteration of a loop over guests is one step, in any order. A request is read at any moment; messages sent go to the log of the run |
| `Start` | `signode.go`, `protocol_start` and what it calls, `start_net_caller`, `start_listeners` | from the command line and the files to the parameters of `Program`. The number of arguments, the directory part of file names and the messages of a panic are left out; `net.Listen` succeeds or not for an address; the listener passes each received message to the firewall |
| `KeyProgram`, `KeyStart` | `Node`, `Dkg`, `Tables`, `run_longterm.go` and `runner.go` together: the program in the mode that makes long-term keys, from its start | as for `Program`; the order in which the shares are tested is that of a map |
| `Scan` | the loop of `run_sigs` over a `bufio.Scanner` | the text is valid UTF-8 |
| `Print` | what `run_sig.go` prints, on top of `Program` | a line is written whole |
| `Encoding` | `MarshalTo`, `UnmarshalFrom`, `New` of `suite.go` | readers and writers as described in the file |
| `Console` | `run_sigs`, `_run_sig1` and the end of `main`, on top of `Program`, `Scan` and `Print` | a word is delivered when what follows it has come; a panic and the killing of the process are not among its events |
| `Hash` | `suite.go` `Hash`, `utils.go`, and the functions that write to a hash object | the object is external, written from the published algorithm |
| `Files` | `keygen.go`, `util/file.go` (writing) | any number of runs at a time in one directory; `os.CreateTemp` takes the first of the drawn names that is not in use |

Not modelled: `suite.go` except `New` and `Hash`, log output, the kyber, btcec and Ethereum libraries, test helpers.
There is no on-chain contract in /repo, so "usable on chain" (C57) means what `chain_valid` tests.

Tests of the model (not proofs): `Props/RepoFiles` runs it on the files that the real program left in `siggy/run` (keys, configuration,
long-term shares with threshold 2): it reads them and computes the same public keys, order of members, guests and commitments, and
writes the shares as they are. `Props/RepoTests` runs the unit tests of `ch` that have written-out values, with Keccak-256 itself
(`Spec/Keccak`) as the hash function.

## Where the code does not have the property

Each of these has a theorem that shows the failure (`..._counterexample` or as named), and a `_partial` theorem for what holds.

* C19: `Sign` accepts messages that `Verify` refuses; its range test is only evaluated after an error.
* C20: a partial signature that arrives from the own index before `PartialSig` was called is counted twice.
* C36: a host entry naming an unknown key file silently becomes member 0.
* C50: key generation has protocol code 0, whose negative is 0, so its runs are never removed.
* C54: the failed message is overwritten by the loop's post statement before it is pushed back.
* C59: the minus sign of a document is lost (`-AA` and `AA` have the same signature); from 2^256 on no signature verifies.
* C60: a response without inner response, and a partial signature without signature, crash the node.
* C65: a stored long-term share made under a larger threshold gives signatures that do not verify.
* C67: `RepresentsScalar` accepts negative integers.
* C74: `0` at a time with 13 digits and `01` at one with 12 digits have one run id.
* C75: of two requests with one run id and different documents, the first prints a signature for the document of the second.
* C76: as C60; also, a request may deregister the document of another one with the same run id, whose run then panics.
* C77: `step_final` pushes the share of the nonce as output of the key generation in signing runs; nothing takes it out.
* C71, C82: a second request with a run id in use never ends (C71 states it as such; `C82_counterexample_ids`), so the tool never leaves (`C122_counterexample_twice`).
* C84: a key file that no host lists makes the list of queues too short: `start_net_caller` panics, or the first message to the last
  member does (`C84_counterexample_unlisted`). Configurations compiled by hostcomp do not have this.
* C93 (`C93_not_attributed`): a signature is printed without its request, and may follow the line that names the run of another request.
* C95: `New` compares with `reflect.TypeOf` of nil interfaces and returns nil for every type. Not modelled: `Write` in the same file passes
  its objects as one slice (`objs` without `...`).
* C96 (`C96_failed_unmarshal`): a failed `UnmarshalBinary` of a point has already replaced the x ordinate of its receiver.
* C89 states as such that one word of more than 65535 bytes on standard input makes the program deaf to all later requests.
* C105 states as such that a single member that is not there makes every process panic at the end of the first attempt at long-term keys,
  whatever the threshold.
* C110 states as such that messages are dropped for up to 302 s after a peer has come back.
* C111 states as such that config.out made a second time through the same file is refused, and so is a host with the label T.
* C113 (`C113_counterexample`): `MarshalBinary` of a scalar reduces it in place, so it writes; two signing runs of one guest do this with
  the secret of the guest at the same time (`NewDSS`, `PartialSig`, `NewDistKeyGenerator`) with no common mutex, a data race in the sense
  of Go. The value written is the one that is there, as the secret is reduced.
* C114 (`C114_counterexample`): `_run_incoming_queue_consumer` appends messages for later stages to the buffer of the run without looking at
  their sender, type or number, so whoever can send to a node makes it keep any number of them until the run has entered the stage.
* C116 (`C116_split`, `C116_silent`): commitments are sent to each member on its own and nothing compares them, so a dishonest member can make another
  one finish with a different public key. And if kyber's `SetTimeout` leaves out the responses to the own deals, which cannot be seen from /repo, then one silent
  member makes every `step_commits` give up, and C104 is of no use.
* C123 (`C123_stopped`, `C123_counterexample`): so one dishonest member who takes part in a signing can keep any number of honest ones from signing, with no sign
  of who it was: what it tells each of them fits.
* C124 (`C124_chosen`, `C124_forged`, `C124_counterexample`): nor is the different public key left to chance. A member who has seen the commitments of the others can
  make another one finish with any public key it likes, also one whose secret it has alone; what it then signs verifies under the key that the other one has.
* C125 (`C125_veto_key`, `C125_veto_sig`, `C125_counterexample_key`, `C125_counterexample_sig`): after the deals are certified, each qualified member can still stop
  a key generation or a signing by sending no commitments, also after it has seen those of the others. This is shown for runs that receive no justifications, complaints about commitments and
  reconstructions (`Plain`): a reconstruction could give kyber the missing commitments, and the model has none. In /repo a reconstruction is only sent in answer to a
  complaint, and a complaint only in answer to commitments that came (dkg.go:100-112), so silence brings about neither.

## Plan per property

| id | modelled | proof |
|----|----------|-------|
| C01 C02 C67 | `scalar.go` over `Int` | modular arithmetic, casts to `ZMod n`, primality of n (Pratt certificate checked by the kernel) |
| C03 C04 | byte encodings of `scalar.go`, `field.go` | big-endian positional lemmas |
| C05 | `maybeSqrtInField` with exponent (q+1)/4 | Euler criterion in `ZMod q`, primality of q |
| C06-C09 | `point.go` coordinates as pairs of `Int` | roots unique up to sign; byte lemmas |
| C10 C11 | btcec contract as affine formulas | refinement to Mathlib's `WeierstrassCurve.Affine.Point`; n·Base = 0 by a kernel-checked addition chain; counting argument (at most 2q+1 points, no 2-torsion) for order n |
| C12 C13 | `Embed`, `Data`, `Pick`, `Generate` over arbitrary streams, loops with fuel | induction over attempts |
| C14-C19 | `ethschnorr.go`, hash a parameter | group algebra; C19 is false of the code: negation and a partial theorem |
| C20-C26 | `ethdss.go` as a state machine | invariants over call histories; Lagrange interpolation |
| C27 C28 | `csprng.go` | the concatenated output is a prefix of the key stream: invariant over calls |
| C29 C30 | DTO conversions | round-trips built from C03, C07 |
| C31-C36, C63, C64 | `layout/`, `base/`, `util/`, hostcomp | sorted permutations are unique; list inductions; C36 false of the code |
| C37-C41 C68 | `firewall.go` as a state machine with clock | invariants over histories |
| C42-C47 C70 | `prot.go` run as a state machine of timer and arrival events with a ghost log | invariants over histories |
| C48 C49 C51 | registry, observers, queue as interleaving machines | invariants over all interleavings |
| C50 | clean-up signal | holds for DSS, false for DKG (`-0 = 0`): negation and partial |
| C52 C66 | output and document maps | refinement to a function |
| C53-C55 | `net_caller.go` as a machine with environment choices | invariants; C54 is false of the code |
| C56 | stage clock | induction over stages |
| C57-C59 | `run_longterm.go`, `run_sig.go` | induction over outcomes/tokens; C59 false for negative text |
| C60 | crash outcomes explicit | false of the code (nil inner pointer): negation and partial |
| C61 C62 | `public_key.go` with hexutil | hex round-trip |
| C65 | DSS final stage | partial: needs consistent own share and T; negation for too small T |
| C72 C73 | runs of several members with consistent shares, every other message arbitrary | the data of a run followed through its stages (`Follow`), with C22, C23, C24, C29 and C43 |
| C74 | run ids as strings | digits of times with 13 places |
| C75 C76 C77 | the whole program as it signs | one invariant over all histories (`PInv`): of the node, of the goroutines of the requests, of the runs and the tables; C65 and C60 applied to each run |
| C78 C79 | start of the runs, two processes | the history of the node inside the program, whose launches are for requests; invariants of the node: no message gets past the firewall and no run is created before the start of an allowance, and each runner past `fw_set_allowance` has a firewall thread of its own |
| C80 C81 | several processes | each run of a process is one of an honest member, by `PInv`; then C72 and C73 |
| C82 | the whole program as it signs | a measure that every step except a tick, a request and a message makes smaller; further invariants (`Known`) on who waits for whom; whoever waits is let go when nothing else can happen and it is late enough |
| C83 C84 | the start of the tool | C30-C35 and C63 put together; a well-formed configuration maps each member to one address |
| C85 | the start and the whole program | a started process is `Ready` in the sense of C80; times in nanoseconds and milliseconds; C79 |
| C86 C87 | the whole program as it makes long-term keys | an invariant over all histories on top of `PInv` (`SInv`): which run each output came from, and which attempts were over; the shares of past attempts are ghost data of the proof |
| C88 | two starts and two programs | C86 for each process, then C83 and C85 |
| C89 | text as a list of characters | the words of a text are unique; induction over the text |
| C90 | a directory and any number of runs of keygen | invariant: the names in the directory are those of the runs and those of others, without repetition |
| C91 | the whole program, histories without delay | the clock is moved only when nothing can be done (`Prompt`); then the deadline of each run is a function of its start and its stage (`Sched`), and a message that has arrived is given to its run before the clock moves; the run of an honest member sends its partial signature to QUAL in stage 10 (`honest_sends`); the rest is C80 and C81 |
| C92 | the whole program as it makes long-term keys | the measure and the invariants of C82 for the shared parts, further ones for the loop over attempts (`Known` in `KeyLive`); C87 for the panics |
| C93 | what the program prints | each line tagged with its request, as an invariant; digits and separators determine the printed numbers |
| C94 | readers as lists of pieces | induction over the pieces; C03 and C07 for each item |
| C95 | Go types as far as needed | computation; C95 is false of the code |
| C96 | heap of points | simulation by variables with group elements (`Good`), one case for each method |
| C97 | values | digits determine numbers; C03, C08, C09 |
| C98 | the whole program as it makes long-term keys, histories without delay | as C91; the attempts do not overlap (`Apart`), so the schedule of an attempt holds from its start (`Sched` in `KeyPrompt`); steps and processors send nothing for earlier stages (`Ahead`) |
| C99 | protocol runs with kyber's generator as a parameter; a group of them | Spec/Generation says what a generator does when it is given what the others made, in any order and with repetitions; each run follows the stages (`Trail`), then induction over op codes across the group (`C99_together`) |
| C100 | several programs as they make long-term keys, and the network between them as a hypothesis | the runs of an attempt in all processes are a group as in C99 (`groupOf` in `KeyTogether`): closed because what comes in was sent, timely by C98; then the main goroutines find full QUALs |
| C101 | several programs as they sign, and the network between them as a hypothesis | the runs of a request in all processes are a group as in C99 (`seatGroup` in `SignTogether`); it follows that no run gives up before the partial signatures, that all are in QUAL and what the nonce shares are, which are the hypotheses of `C91_all`. The generator is asked for the share in one state only, so statements about runs mention only the state it ends in (`pin_exec` in `Pin`) |
| C102 | several programs, started twice | `C102_signs` restates C101 for processes started with files (`Signers.Set`), where all that C101 asks of the configuration follows from the files; `C102_end_to_end` starts from the processes of C100 and needs of the second start only that it is in the same surroundings (`Again`) |
| C103 | several programs with all their queues and connections | invariant: what is in a queue was given to `try_send`, what comes in was in a queue, each process alone has its own history (`Inv` in `Proofs/Network`); a queue keeps its order, so a message has been delivered when there are as many calls as messages up to it (`delivered`); C84 for the addresses. Then C100, C101 and C102 |
| C104 | as C103, with only some of the processes started again | `Net.on` says who takes part; the group of C99 has only their runs, and C101 to C103 ask only for as many guests as the threshold (`C104_any_quorum`) |
| C105 | as C103, with a member that is a guest of no process | the group of runs still ends with shares, but each QUAL is short (`short_length`), so `C87_gives_up` applies; no history without delay goes on after the end of the attempt (`C105_no_keys`) |
| C106 | protocol runs; key generation and signing | simulation: the two runs differ in the log and the receive buffer only (`Same` in `Props/Noise`); `Plausible` in `Spec/Generation` says what the checks let pass. C100 to C105 ask only that plausible messages for the run are from the processes, so outsiders may send anything else and repeat messages |
| C107 | the shared tables of `dss.go` | each generator and DSS object has one owner (`Inv` in `Proofs/Kdats`), so a call changes what its run sees and nothing else; a run sees in the tables what `Dkg` gives it as its own data. The entries made by the verification of the configuration are never removed (the comment in dss.go:71-72 says so); their number is fixed by the configuration |
| C108 | one outgoing queue with a clock | invariants; how far the calls have come is bounded by the time that has passed (`Ahead`). A process that is started less than two seconds before the start of a run sends nothing in time for it, since `_try_connect` sleeps before it dials the first time |
| C109 | one outgoing queue with a clock; several processes | invariant: each message has a time by which its call has returned (`LI` in `Props/NetLoad`). `C109_works` gives the hypothesis `Works` of C103 to C105 from what is said about dialling, calls, threads and load (`Quick` in `Spec/NetLoad`) |
| C110 | one outgoing queue with a clock, after any history | invariants on the timers (`TI`, `RI` in `Proofs/NetBack`), on old connections (`NI`) and on the time that the remaining calls take (`Phase` in `Props/NetBack`). After a long absence of the peer its messages are dropped for up to 302 s after it is back (`tb_dropped`), since the connector sleeps up to five minutes; the first message with a connection that is broken is lost (C54) |
| C111 | `hostcomp` and `s2j` on lists of expressions | computation; `append-expr` appends, and `json.Unmarshal` wants one value, so making config.out a second time through the same file (`/tmp/config.tmp` in the comment of hostcomp.lisp) gives a file with which signode panics. A label T becomes `true`, and `_extract_strings` panics |
| C112, C113 | `Locks`: what every function locks, unlocks, shares and waits for | an order on the mutexes (`rank`) that every function keeps to (`Ok` in `Proofs/Locks`); a mutex comes free by induction on the order from its end |
| C114 | firewall, queues, buffer of a run, program | invariants (`Firewall.Inv`, `Short`, `Tidy`); for the negation the program goes through the same four events for each message |
| C115 | `TimeParse`: the parser and Go's count of days | the calendar of `Spec/Time` is given by which day follows which; the count of days goes up by one with each day (`unixDay_next`) and tells dates apart (`unixDay_inj`) |
| C116 | `Rabin`: dealer, verifiers and generator of one member | states of a generator by what it was told (`phases`), with the exponents of all points; for any messages an invariant: commitments that were taken fit the share from the deal (`Inv`) |
| C117 | `Rabin`: what is sent before the commitments | other coefficients that give the same values at few points and the same sums `f·G + g·H` (`others`); generators with either stay alike in all that is seen (`Alike`). That encrypted deals for others say nothing is assumed by leaving them out of `View`. Complaints about the deals of the member are excluded (`Ask.Plain`), since the justifications that kyber answers with, and that `process_response` broadcasts (dkg.go:71-80), are not in the model: they disclose the deal of whoever complains |
| C118 | runs (`Dkg`, `Prot`) with the generator of `Rabin` | what the generator has been told and the stage the run is at go together (`Kst` in `Proofs/RabinRun`, `Jst` in `Proofs/RabinStage`): kyber's `SecretCommits`, `DistKeyShare` and the like are called only where they cannot panic. Commitments in the name of the member itself are excluded (`Foreign`), since signatures are arbitrary in the model and the generator would take them in place of its own |
| C119 | `Program` and `KeyProgram` with the generators of `Rabin` | the theorems C76, C82 and C87 are proved from `RunsSafe` (no run panics), which C118 gives; a saved commitment can be the null point, if coefficients of the members add up to zero, so the panic of C87 at the end of an attempt remains |
| C120 | `Network` with the generators of `Rabin` | C103, C104 and C105 with C116 for what is expected of generators and C118 for their calm; that a dealer does not wait for deals of silent members (`dealerTimeout`) is needed only when some member is silent |
| C121 | `Hash`: an object with lanes and a buffer | the object holds the state of the bytes written so far (`Fed` in `Proofs/Hash`), by induction over the rounds of `Write`; `sessionID` writes the commitments of both keys without a mark between them and nothing for the identity (`C121_session_same`); in the tool both keys have as many commitments as the threshold they were made with |
| C122 | `Console`: text, goroutines of requests, program, output | the history of the program inside (`trace` in `Spec/Console`); the goroutines that are past their arguments and the requests of the program go together one to one (`Inv.idx`). `C122_signed` speaks of tools that are still running 650 ms after the start of the request (`InTime.now`), so whose standard input is open or who have other requests; what one that left earlier has printed is said by `C122_left` and `C122_kyber` only |
| C123 | `Rabin` and `Dss` | the liar adds `x - (i + 1)` to its polynomial for member `i`, so the sums of the constant terms differ by the numbers of the members; what a signing object counts is bounded by an invariant (`Few`). The theorems about any number of members speak of generators and signing objects (calls), the witness `C123_counterexample` of runs |
| C124 | `Rabin` | what the liar tells (`steered`) is computed from public values only and is shown to commit to its polynomial plus a multiple of `x - (i + 1)`; that it fits the share of `i` is C116. The theorems speak of generators (calls), the witness `C124_counterexample` of runs |
| C125 | runs (`Dkg`, `Prot`) with the generator of `Rabin` | invariant of a run (`Hst` in `Proofs/RabinHeard`): every entry in the table of commitments is its own or came in a message of that sender. Justifications, complaints about commitments and reconstructions, which the model leaves out, are excluded (`Plain`); the proof does not use this hypothesis, it keeps the claim to what the model covers |
| C69 | heap of scalars | case analysis |

## Axioms per theorem

Written by `tools/mkaxioms.py` from the output of `#print axioms`.

<!-- axioms -->
* none (4): `C12_embed_too_long`, `C67_counterexample`, `Encoding.C95_counterexample`, `Encoding.C95_new_partial`
* propext (12): `C02_inv_unreduced`, `C08_noncanonical_accepted`, `C21_effect`, `C41_no_panic`, `C60_counterexample_partsig`, `C64_zero`, `Hash.C121_tables`, `NetCaller.C53_never_blocks`, `NetCaller.C54_counterexample`, `Node.C50_counterexample`, `Node.C51_reuse_counterexample`, `RunId.C74_counterexample`
* Quot.sound, propext (53): `C20_counterexample`, `C26_refuses`, `C28_independent`, `C30_coverage`, `C31_refuses`, `C34_distinct_keys`, `C35_compile_load`, `C35_wellFormed`, `C36_compiled_partial`, `C52_last_pushed`, `C52_once`, `C60_counterexample_response`, `C61_roundtrip`, `C63_unique`, `C65_counterexample`, `C66_last_registered`, `C66_none`, `C66_signs`, `C66_total`, `C69_frame`, `Hash.C121_length`, `Hostcomp.C111_compiles`, `Hostcomp.C111_label`, `Hostcomp.C111_twice`, `Kdats.C107_nothing_left`, `Kdats.C107_others`, `Kdats.C107_own_data`, `Locks.C112_exclusive`, `Locks.C112_unlocks_own`, `Locks.C112_waits_without`, `Locks.C113_tables_partial`, `Memory.C114_counterexample`, `Memory.C114_queues_partial`, `NetCaller.C53_bounded`, `NetCaller.C53_lossless`, `NetCaller.C53_no_panic`, `NetCaller.C53_order`, `NetCaller.C54_never_retried`, `NetCaller.C54_next_message_partial`, `NetCaller.C55_delays`, `NetCaller.C55_ends`, `NetCaller.C55_one_connector`, `NetCaller.C55_publications`, `NetTime.C108_grace`, `NetTime.C108_refines`, `Program.C75_counterexample`, `Rabin.C116_key`, `Rabin.C116_silent`, `Signode.C57_panics`, `Signode.C59_registered`, `Signode.C59_sign_lost`, `Spoiler.C123_counterexample`, `Steer.C124_counterexample`
* Classical.choice, Quot.sound, propext (316): `C01_scalar_equal`, `C01_scalar_ops`, `C02_div`, `C02_inv`, `C02_panic_iff`, `C03_equal_iff_bytes`, `C03_roundtrip`, `C03_unmarshal`, `C04_equal`, `C04_field_bytes`, `C04_field_ops`, `C04_setBytes`, `C05_sqrt`, `C06_validPublicKey`, `C07_equal_iff_bytes`, `C07_marshal_fails_iff`, `C07_roundtrip`, `C08_unmarshal_accepts`, `C08_unmarshal_result`, `C09_accepts`, `C09_roundtrip`, `C09_setCoordinates`, `C10_closure`, `C10_group_laws`, `C10_mul`, `C10_mul_neg`, `C11_cyclic_of_order_n`, `C11_scalar_action`, `C12_data_bounded`, `C12_embed_data`, `C13_generate`, `C13_generate_first_draw`, `C13_pick`, `C14_sign_stream`, `C14_sign_verifies`, `C15_verify_iff`, `C15_verify_pure`, `C16_no_malleability`, `C16_unique_s`, `C17_extract`, `C17_nonce_reuse`, `C18_binding`, `C18_challenge_input`, `C19_counterexample`, `C19_sign_partial`, `C20_distinct_partial`, `C20_distinct_peers_partial`, `C20_qualified`, `C21_accepts_iff`, `C21_panics_iff`, `C22_honest_accepted`, `C23_returns`, `C23_value`, `C23_verifies`, `C24_agree`, `C25_once`, `C26_undetermined`, `C27_fills_are_prefix`, `C28_xorKeyStream`, `C29_commits`, `C29_complCommits`, `C29_deal`, `C29_justification`, `C29_partsig`, `C29_priShare`, `C29_reconsCommits`, `C29_vssDeal`, `C30_save_load`, `C31_same_order`, `C32_find`, `C32_index`, `C32_pubfile_map`, `C33_addr_members`, `C33_routing`, `C34_guests`, `C34_secret_files`, `C36_counterexample`, `C36_reads_zero`, `C37_nothing_early`, `C38_default_deny`, `C38_only_allowed`, `C38_times`, `C39_output`, `C40_revoked`, `C41_valid`, `C42_own_stage_once`, `C43_after_step`, `C43_order`, `C44_final`, `C44_terminates`, `C45_checked`, `C45_dkg_sender`, `C45_dss_sender`, `C46_broadcast`, `C46_multicast`, `C46_when_due`, `C47_sections`, `C47_stages`, `C47_stays`, `C47_terminates`, `C56_durations`, `C56_no_drift`, `C56_window`, `C60_dkg_partial`, `C60_dss_partial`, `C61_accepts`, `C61_uncompressed`, `C62_address`, `C64_keygen`, `C65_verifies_partial`, `C67_representsScalar_partial`, `C68_never_blocks`, `C69_programs_refine_field`, `C70_dkg`, `C70_dss`, `C72_signs`, `C73_agree`, `Console.C122_bounded`, `Console.C122_counterexample_twice`, `Console.C122_exits`, `Console.C122_kyber`, `Console.C122_left`, `Console.C122_reads`, `Console.C122_settled`, `Console.C122_signed`, `Encoding.C94_reads`, `Encoding.C94_roundtrip`, `Encoding.C94_writes`, `Files.C90_goes_on`, `Files.C90_guests`, `Files.C90_secrets`, `Files.C90_written`, `Generation.C99_key`, `Generation.C99_only`, `Generation.C99_sends`, `Generation.C99_together`, `Hash.C121_calls`, `Hash.C121_pad`, `Hash.C121_session`, `Hash.C121_session_same`, `Hash.C121_written`, `Heard.C125_counterexample_key`, `Heard.C125_counterexample_sig`, `Heard.C125_key`, `Heard.C125_veto_key`, `Heard.C125_veto_sig`, `Hiding.C117_fixed`, `Hiding.C117_hides`, `Hiding.C117_published`, `KeyProgram.C100_files`, `KeyProgram.C100_keys`, `KeyProgram.C100_no_panic`, `KeyProgram.C105_first`, `KeyProgram.C105_no_keys`, `KeyProgram.C105_panics`, `KeyProgram.C86_saved`, `KeyProgram.C87_gives_up`, `KeyProgram.C87_panics`, `KeyProgram.C92_attempt_ends`, `KeyProgram.C92_awake`, `KeyProgram.C92_bounded`, `KeyProgram.C92_outcome`, `KeyProgram.C98_ends`, `KeyProgram.C98_given`, `KeyProgram.C98_sends`, `KeyProgram.C98_taken`, `KeyStart.C100_on_schedule`, `KeyStart.C100_started`, `KeyStart.C102_end_to_end`, `KeyStart.C102_signs`, `KeyStart.C103_carried`, `KeyStart.C103_end_to_end`, `KeyStart.C103_keys`, `KeyStart.C103_relayed`, `KeyStart.C103_signs`, `KeyStart.C104_any_quorum`, `KeyStart.C105_started`, `KeyStart.C88_end_to_end`, `KeyStart.C88_restarts`, `KeyStart.C88_same_key`, `KeyStart.C98_over`, `KeyStart.C98_started`, `KeyStart.C98_together`, `Locks.C112_given_back`, `Locks.C113_counterexample`, `Memory.C114_ahead_partial`, `Memory.C114_firewall_partial`, `Memory.C114_freed_partial`, `NetCaller.C55_delays_bounded`, `NetCaller.C55_try_connect`, `NetTime.C108_delivers`, `NetTime.C109_load`, `NetTime.C109_works`, `NetTime.C110_recovers`, `Node.C50_dkg_never_removed`, `Node.C50_removed_partial`, `Node.C50_worked_off_partial`, `Node.C51_not_resurrected`, `Node.C51_signal_last`, `Node.C71_repeated_request_hangs`, `Noise.C106_checks`, `Noise.C106_erased`, `Noise.C106_noise`, `PointHeap.C96_failed_unmarshal`, `PointHeap.C96_programs`, `PointHeap.C96_total`, `Print.C93_not_attributed`, `Print.C93_output`, `Print.C93_signature_text`, `Program.C101_all`, `Program.C75_origin`, `Program.C75_verifies_partial`, `Program.C76_counterexample`, `Program.C76_counterexample_ids`, `Program.C76_partial`, `Program.C77_counterexample`, `Program.C77_docs`, `Program.C77_ended`, `Program.C77_sigs`, `Program.C78_runs`, `Program.C78_sent`, `Program.C79_taken`, `Program.C80_same`, `Program.C81_prints`, `Program.C82_bounded`, `Program.C82_counterexample_ids`, `Program.C82_reaches`, `Program.C82_settled`, `Program.C91_all`, `Program.C91_ends`, `Program.C91_given`, `Program.C91_prints`, `Program.C91_sends`, `Rabin.C116_fits`, `Rabin.C116_generates`, `Rabin.C116_proper`, `Rabin.C116_run`, `Rabin.C116_split`, `Rabin.C116_together`, `RabinProgram.C119_calm`, `RabinProgram.C119_gives_up`, `RabinProgram.C119_prints`, `RabinProgram.C119_reaches`, `RabinProgram.C119_saved`, `RabinRun.C118_calm_dkg`, `RabinRun.C118_calm_dss`, `RabinRun.C118_share`, `RabinRun.C118_signs`, `RabinRun.C118_verifies`, `RabinTogether.C120_absent`, `RabinTogether.C120_any_quorum`, `RabinTogether.C120_keys`, `Registry.C48_at_most_once`, `Registry.C48_drains`, `Registry.C48_exactly_once`, `Registry.C48_finite`, `Registry.C48_never_blocks`, `Registry.C48_notified`, `Registry.C48_only_after`, `Registry.C49_distinct`, `Registry.C49_one_run`, `Registry.C49_one_thread`, `Registry.C49_registered`, `Registry.C49_thread_has_run`, `RunId.C74_attempts_partial`, `RunId.C74_kinds`, `RunId.C74_own_attempts`, `RunId.C74_requests_partial`, `Scan.C89_long`, `Scan.C89_requests`, `Scan.C89_stream`, `Scan.C89_unique`, `Scan.C89_words`, `Signode.C57_accepts`, `Signode.C57_all_members`, `Signode.C57_retries`, `Signode.C57_returns`, `Signode.C58_runs`, `Signode.C58_start`, `Signode.C58_tokens`, `Signode.C58_triples`, `Signode.C59_counterexample`, `Signode.C59_out_of_range`, `Signode.C59_reading`, `Signode.C59_signed_partial`, `Spoiler.C123_alone`, `Spoiler.C123_keys`, `Spoiler.C123_refused`, `Spoiler.C123_stopped`, `Start.C83_guests`, `Start.C83_refuses`, `Start.C83_starts`, `Start.C84_counterexample_unlisted`, `Start.C84_listens`, `Start.C84_reaches`, `Start.C84_routes`, `Start.C85_jobs`, `Start.C85_now`, `Start.C85_ready`, `Start.C85_same`, `Start.C85_taken`, `Steer.C124_chosen`, `Steer.C124_forged`, `Text.C97_coordinates`, `Text.C97_hash`, `Text.C97_point_text`, `Text.C97_scalar_text`, `Text.C97_sizes`, `Text.C97_types`, `Text.C97_unreduced_text`, `TimeParse.C115_calendar`, `TimeParse.C115_exactly`, `TimeParse.C115_jobs`, `TimeParse.C115_missing`, `TimeParse.C115_reads`, `TimeParse.C115_start`
<!-- end of axioms -->
