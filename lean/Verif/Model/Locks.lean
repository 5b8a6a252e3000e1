/-!
Model of what the goroutines of signode lock, unlock and share: for every function the order in which it takes and gives back mutexes,
accesses data that goroutines share, and does what can wait. What is computed is left out, so every condition is a choice (`alt`), every
`for` any number of rounds (`loop`) and the run object that a map lookup delivers any run (`any`): the executions here include those of
the code. Run objects have numbers, `r`; a queue or table of protocol `pc` and guest `g` has the index `(pc, g)`.

Data that is written only before the goroutines that read it are started (`_members`, `_guests`, `_threshold`, `_protocols`, `_ncs`,
`_rcv_qs`, `prot_fw`, the outer maps of the tables, the final fields of a run) is left out, and so are a run object before it is
registered, channels, which have their own synchronization, and the mutexes inside of the Go libraries.
-/
namespace Verif.Locks

/-- The mutexes of the program. -/
inductive Lock where
  /-- firewall.go:32 `_lck`. -/
  | fw
  /-- prot.go:66 `_runs_lck`. -/
  | runs (q : Int × Int)
  /-- prot.go:139 `lck` of the run number `r`. -/
  | run (r : Nat)
  /-- prot.go:67 `_term_obs_lck`. -/
  | obs (q : Int × Int)
  /-- prot.go:316 `_outputs_lcks`. -/
  | outputs (q : Int × Int)
  /-- dss.go:56 `dss_kdat_lck`. -/
  | kdats
  /-- dss.go:13 `_dss_lck`. -/
  | docs
  /-- csprng.go:13 `lck`. -/
  | rng
  deriving DecidableEq

/-- The data that goroutines share. -/
inductive Var where
  /-- firewall.go:27-31 `_drop_all`, `_allowances`, `_state`, `_buffer`. -/
  | fw
  /-- prot.go:65 `_runs`. -/
  | runs (q : Int × Int)
  /-- prot.go:143-150: the mutable fields of a run, with the objects of kyber and ethdss that belong to it. -/
  | run (r : Nat)
  /-- prot.go:68 `_term_obs`. -/
  | obs (q : Int × Int)
  /-- prot.go:315 `_outputs`. -/
  | outputs (q : Int × Int)
  /-- dss.go:55,57 `dss_kdat_args`, `dss_kdats`. -/
  | kdats
  /-- dss.go:10,12 `_longterms`, `_docs`. -/
  | docs
  /-- csprng.go:11,12 `rem`, `st`. -/
  | rng
  /-- The scalar that `sec` of the guest `g` points to: make_dss_kdat (dss.go:73) and make_dkg_kdat (dkg.go:37) give the pointer to
  every run of the guest. -/
  | secret (g : Int)
  deriving DecidableEq

/-- What a goroutine does in one step. -/
inductive Act where
  | acq (l : Lock)
  | rel (l : Lock)
  /-- An access to shared data, a write if `w`. -/
  | acc (w : Bool) (v : Var)
  /-- Something else that takes no time to wait for anything: starting a goroutine, a send in a `select` with `default`, a send to a
  channel with room. -/
  | go
  /-- Something that can wait for another goroutine, a peer or the clock: sleeping, receiving, a send to a channel that may be full. -/
  | wait

/-- The skeleton of a function. -/
inductive Code where
  | skip
  | act (a : Act)
  | seq (a b : Code)
  | alt (a b : Code)
  | loop (a : Code)
  | any (f : Nat → Code)

infixr:67 " ;; " => Code.seq
infixr:66 " <||> " => Code.alt

abbrev acq (l : Lock) : Code := .act (.acq l)
abbrev rel (l : Lock) : Code := .act (.rel l)
abbrev rd (v : Var) : Code := .act (.acc false v)
abbrev wr (v : Var) : Code := .act (.acc true v)
abbrev go : Code := .act .go
abbrev wait : Code := .act .wait
abbrev opt (c : Code) : Code := c <||> .skip

/-! ### csprng.go, scalar.go -/

/-- csprng.go:30-46 `fill`. -/
def fill : Code := acq .rng ;; .loop (opt (wr .rng) ;; wr .rng) ;; rel .rng

/-- scalar.go:149-157 `MarshalBinary` of the secret: `s.modG()` (scalar.go:53-57) writes the scalar. point.go:178-194 `Mul` calls it. -/
def marshalSecret (g : Int) : Code := wr (.secret g) ;; rd (.secret g)

/-- What a call to kyber may do: draw random numbers, and compute with the secret that it was given (signatures, Diffie-Hellman). -/
def kyber (g : Int) : Code := .loop (fill <||> marshalSecret g <||> rd (.secret g))

/-! ### dss.go -/

/-- dss.go:22-26 `dss_init`. -/
def dssInit : Code := acq .docs ;; wr .docs ;; rel .docs

/-- dss.go:28-29 `dss_register_doc`. -/
def registerDoc : Code := acq .docs ;; wr .docs ;; rel .docs

/-- dss.go:30-31 `dss_deregister_doc`. -/
def deregisterDoc : Code := acq .docs ;; wr .docs ;; rel .docs

/-- dss.go:33-34 `_longterm1`. -/
def longterm1 : Code := acq .docs ;; rd .docs ;; rel .docs

/-- dss.go:36-38 `_doc_for`. -/
def docFor : Code := acq .docs ;; rd .docs ;; rel .docs

/-- dss.go:59-61 `dss_kdat`. -/
def dssKdat : Code := acq .kdats ;; rd .kdats ;; rel .kdats

/-- dss.go:62-65 `dss_cleanup`. -/
def dssCleanup (r : Nat) : Code := acq .kdats ;; rd (.run r) ;; wr .kdats ;; wr .kdats ;; rel .kdats

/-- dkg.go:36-37 `make_dkg_kdat`. -/
def makeDkgKdat (g : Int) : Code := kyber g

/-- dss.go:67-76 `make_dss_kdat`. -/
def makeDssKdat (g : Int) : Code := makeDkgKdat g ;; opt (acq .kdats ;; wr .kdats ;; rel .kdats)

/-- net_caller.go:11-14 `try_send`. -/
def trySend : Code := go

/-- prot.go:272-275 `send`. -/
def send (r : Nat) : Code := rd (.run r) ;; (wr (.run r) <||> trySend)

/-- prot.go:262-270 `broadcast`, `multicast`, `_send1`. -/
def broadcast (r : Nat) : Code := .loop (opt (send r))

/-- prot.go:153 `abandon`. -/
def abandon (r : Nat) : Code := wr (.run r)

/-- dss.go:78-89 `st_init`; the arguments of NewDSS, then ethdss.go:115-146 `NewDSS`, which multiplies by the secret. -/
def stInit (r : Nat) (g : Int) : Code :=
  rd (.run r) ;; wr (.run r) ;;
  (abandon r <||>
    (acq .kdats ;; rd .kdats ;; longterm1 ;; wr (.run r) ;; docFor ;; marshalSecret g ;; wr .kdats ;; opt (abandon r) ;; rel .kdats))

/-- ethschnorr.go:92-112 `Sign` with the secret: a random number, `Mul(private, nil)`, `Mul(private, challenge)`. -/
def sign (g : Int) : Code := fill ;; marshalSecret g ;; rd (.secret g)

/-- dss.go:91-94 `st_partsig`; ethdss.go:154-176 `PartialSig`. -/
def stPartsig (r : Nat) (g : Int) : Code :=
  dssKdat ;; wr (.run r) ;; sign g ;; wr (.run r) ;; (abandon r <||> (rd (.run r) ;; broadcast r))

/-- dss.go:96-97 `pr_partsig`. -/
def prPartsig (r : Nat) : Code := dssKdat ;; wr (.run r)

/-- prot.go:327-329 `push_output`. -/
def pushOutput (q : Int × Int) : Code := acq (.outputs q) ;; wr (.outputs q) ;; rel (.outputs q)

/-- prot.go:331-336 `pop_output`. -/
def popOutput (q : Int × Int) : Code := acq (.outputs q) ;; rd (.outputs q) ;; wr (.outputs q) ;; rel (.outputs q)

/-- dss.go:99-103 `dss_st_final`; pc_dss is 1. -/
def dssStFinal (r : Nat) (g : Int) : Code :=
  dssKdat ;; rd (.run r) ;; (abandon r <||> (dssKdat ;; wr (.run r) ;; (abandon r <||> pushOutput (1, g))))

/-! ### dkg.go -/

/-- dkg.go:56-63 `step_deal`. -/
def stepDeal (r : Nat) (g : Int) : Code := rd (.run r) ;; wr (.run r) ;; kyber g ;; (abandon r <||> .loop (opt (send r)))

/-- dkg.go:65-83,100-116: the processors of messages of the key generation. -/
def dkgProc (r : Nat) (g : Int) : Code := rd (.run r) ;; wr (.run r) ;; kyber g ;; opt (opt (rd (.run r)) ;; broadcast r)

/-- dkg.go:91-98 `step_commits`. -/
def stepCommits (r : Nat) (g : Int) : Code :=
  rd (.run r) ;; wr (.run r) ;; opt (abandon r) ;; opt (wr (.run r) ;; kyber g ;; (abandon r <||> (rd (.run r) ;; broadcast r)))

/-- dkg.go:118-127 `step_final`; pc_dkg is 0. -/
def stepFinal (r : Nat) (g : Int) : Code :=
  rd (.run r) ;; (abandon r <||> (wr (.run r) ;; (abandon r <||> (rd (.run r) ;; pushOutput (0, g)))))

/-- The step of some stage: dkg.go:54 `step_init`, dkg.go:85-89 `step_vss_done` and the above. -/
def step (r : Nat) (g : Int) : Code :=
  wr (.run r) <||> stepDeal r g <||> (wr (.run r) ;; rd (.run r)) <||> stepCommits r g <||> stepFinal r g <||> stInit r g <||>
    stPartsig r g <||> dssStFinal r g

/-- prot.go:247-259 `_process_msg`. -/
def processMsg (r : Nat) (g : Int) : Code := rd (.run r) ;; opt (dkgProc r g <||> prPartsig r)

/-! ### prot.go -/

/-- prot.go:174-183 `_new_run`. -/
def newRun (g : Int) : Code := (makeDkgKdat g <||> makeDssKdat g) ;; go

/-- prot.go:164-172,185-186 `_ensure_run`, `_register_new_run`, `_register_run`. -/
def ensureRun (q : Int × Int) : Code := acq (.runs q) ;; rd (.runs q) ;; opt (newRun q.2 ;; wr (.runs q)) ;; rel (.runs q)

/-- prot.go:157-161 `ensure_active_run`. -/
def ensureActiveRun (q : Int × Int) : Code := ensureRun q ;; opt go

/-- prot.go:188-191 `_delete_run`. -/
def deleteRun (q : Int × Int) : Code := acq (.runs q) ;; wr (.runs q) ;; rel (.runs q)

/-- prot.go:302-309 `_update_term_observers`. -/
def updateTermObservers (q : Int × Int) : Code :=
  acq (.obs q) ;; rd (.obs q) ;; wr (.obs q) ;; rel (.obs q) ;; .loop wait

/-- prot.go:289-300 `obs_term`. -/
def obsTerm (q : Int × Int) : Code :=
  acq (.obs q) ;; rd (.obs q) ;; wr (.obs q) ;; rel (.obs q) ;;
  acq (.runs q) ;; rd (.runs q) ;; rel (.runs q) ;;
  opt (.any fun r => acq (.run r) ;; rd (.run r) ;; rel (.run r)) ;;
  opt (updateTermObservers q)

/-- prot.go:214-215 `_unlocked_sleep`. -/
def unlockedSleep (r : Nat) : Code := rel (.run r) ;; wait ;; acq (.run r)

/-- prot.go:282-286 `_flush_snd_buf`. -/
def flushSndBuf (r : Nat) : Code := .loop (rd (.run r) ;; trySend) ;; wr (.run r)

/-- prot.go:193-212 `_run_timed_steps`, a goroutine for every run; dss.go:20 and dkg.go:34 for `cleanup`. -/
def runTimedSteps (r : Nat) (q : Int × Int) : Code :=
  acq (.run r) ;;
  .loop (rd (.run r) ;; opt (wr (.run r) ;; unlockedSleep r ;; wr (.run r)) ;; wr (.run r) ;; flushSndBuf r ;;
    rd (.run r) ;; opt (step r q.2) ;; .loop (rd (.run r) ;; processMsg r q.2) ;; wr (.run r) ;; unlockedSleep r) ;;
  opt (dssCleanup r) ;; wr (.run r) ;; rel (.run r) ;; updateTermObservers q

/-- prot.go:227-245 `_run_incoming_queue_consumer`, a goroutine for every queue. -/
def runIncomingQueueConsumer (q : Int × Int) : Code :=
  .loop (wait ;; (deleteRun q <||>
    (ensureActiveRun q ;; .any fun r =>
      acq (.run r) ;; rd (.run r) ;; (.skip <||> wr (.run r) <||> processMsg r q.2) ;; rel (.run r))))

/-- prot.go:219-225 `_receive_msg` of a message with a protocol code that is not negative, as the firewall lets through (firewall.go:113). -/
def receiveMsg : Code := opt go

/-! ### firewall.go -/

/-- firewall.go:56-58: the goroutine that `make_fw` starts. -/
def fwLatch : Code := wait ;; acq .fw ;; wr .fw ;; rel .fw

/-- firewall.go:63-71 `fw_set_allowance`. -/
def fwSetAllowance : Code := acq .fw ;; rd .fw ;; opt (wr .fw ;; wr .fw ;; go) ;; rel .fw

/-- firewall.go:87-88 `_fw_sleep_unlocked_until`. -/
def fwSleepUnlockedUntil : Code := rel .fw ;; wait ;; acq .fw

/-- firewall.go:90-93 `_fw_flush`. -/
def fwFlush : Code := .loop (rd .fw ;; receiveMsg) ;; wr .fw

/-- firewall.go:73-85 `_fw_state_step`, a goroutine for every allowance. `obs` has room for `_nfw` = 4 values and gets 3. -/
def fwStateStep : Code :=
  acq .fw ;; rd .fw ;; fwSleepUnlockedUntil ;; wr .fw ;; go ;; fwSleepUnlockedUntil ;; fwFlush ;; wr .fw ;; go ;;
  fwSleepUnlockedUntil ;; wr .fw ;; go ;; wr .fw ;; wr .fw ;; rel .fw

/-- firewall.go:98-109 `_fw_process`. -/
def fwProcess : Code :=
  acq .fw ;; rd .fw ;; opt (rd .fw ;; (.skip <||> (rd .fw ;; opt (wr .fw)) <||> receiveMsg)) ;; rel .fw

/-- net_listener.go:20-24 `Receive`, in a goroutine of net/rpc for every message. -/
def receive : Code := wait ;; fwProcess ;; wait

/-! ### net_caller.go -/

/-- net_caller.go:28-46 `_run_outgoing_queue_consumer`. -/
def runOutgoingQueueConsumer : Code := .loop (go ;; wait ;; .loop (opt wait ;; opt go) ;; .loop wait ;; wait)

/-- net_caller.go:49-66 `_run_connector`, `_try_connect`. -/
def runConnector : Code := .loop wait

/-! ### runner.go, run_longterm.go, run_sig.go, signode.go -/

/-- runner.go:34-48 `_runner_run_guest`, a goroutine for every guest. -/
def runnerRunGuest (q : Int × Int) : Code := obsTerm q ;; fwSetAllowance ;; wait ;; wait ;; ensureActiveRun q ;; wait ;; go

/-- runner.go:50-54 `_runner_cleanup_run`; the send at prot.go:221 waits for room. -/
def runnerCleanupRun : Code := wait ;; wait ;; wait

/-- runner.go:25-32 `_runner_run`. -/
def runnerRun : Code := .loop go ;; wait

/-- Once for every guest, in the order of map iteration. -/
def forGuests (f : Int → Code) : Code := .loop (.any fun g => f (g : Int))

/-- runner.go:13-20 `run_dss`. -/
def runDss : Code := forGuests (fun _ => registerDoc) ;; runnerRun ;; forGuests (fun _ => deregisterDoc)

/-- run_sig.go:23-40 `_run_sig1`, `_run_sig`, a goroutine for every request. -/
def runSig1 : Code := opt (runDss ;; go ;; forGuests (fun g => popOutput (1, g)))

/-- run_sig.go:10-21 `run_sigs`. -/
def runSigs : Code := .loop (wait ;; opt go) ;; wait

/-- run_longterm.go:3-34 `run_longterm`, `_longterm_loop`, `_longterm`. -/
def runLongterm : Code := .loop (runnerRun ;; forGuests (fun g => popOutput (0, g))) ;; wait

/-- prot.go:87-131 `protocol_start`; what it writes without a mutex is read only by goroutines that it starts later. -/
def protocolStart : Code := forGuests (fun g => makeDkgKdat g <||> makeDssKdat g) ;; .loop go

/-- signode.go:10-28 `main`. -/
def main : Code := wait ;; opt dssInit ;; protocolStart ;; (runLongterm <||> runSigs)

/-- The goroutines of the program. -/
inductive Thread where
  | main
  | fwLatch
  | fwStateStep
  | receive
  | runOutgoingQueueConsumer
  | runConnector
  | runIncomingQueueConsumer (q : Int × Int)
  | runTimedSteps (r : Nat) (q : Int × Int)
  | runnerRunGuest (q : Int × Int)
  | runnerCleanupRun
  | runSig1

/-- The function that a goroutine runs. -/
def Thread.code : Thread → Code
  | .main => Locks.main
  | .fwLatch => Locks.fwLatch
  | .fwStateStep => Locks.fwStateStep
  | .receive => Locks.receive
  | .runOutgoingQueueConsumer => Locks.runOutgoingQueueConsumer
  | .runConnector => Locks.runConnector
  | .runIncomingQueueConsumer q => Locks.runIncomingQueueConsumer q
  | .runTimedSteps r q => Locks.runTimedSteps r q
  | .runnerRunGuest q => Locks.runnerRunGuest q
  | .runnerCleanupRun => Locks.runnerCleanupRun
  | .runSig1 => Locks.runSig1

end Verif.Locks
