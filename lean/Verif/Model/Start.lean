import Verif.Model.Layout
import Verif.Model.Program

/-!
Model of the start of the signing tool (/repo/siggy/src/signode/signode.go, `protocol_start` in protocol/prot.go,
`start_net_caller` in net/net_caller.go, `start_listeners` in net/net_listener.go): from the command line and the files to the
state in which `run_longterm` or `run_sigs` is called. Times are in nanoseconds.
-/
namespace Verif.Start
open Verif.Point Verif.Layout Verif.Dto Verif.Dss Verif.Dkg Verif.Signode

/-- The command line and the files it names (signode.go:11-24): the configuration as decoded from JSON, the directory of public
keys, the directory of secret keys and its entries, the threshold, the time until which everything is dropped, and the file of long-term
key shares, if there is a sixth argument. -/
structure Cmd where
  conf : Json
  pubdir : Dir
  secdir : Dir
  secnames : List String
  threshold : String
  dropUntil : String
  longterms : Option (GoMap Int DksDTO)

/-- What the program gets from outside: `sort.Slice`, `time.Parse`, `time.Now`, kyber's `NewDistKeyGenerator` (secret, public keys,
threshold), and whether `net.Listen` works for an address. -/
structure World (K : Type) where
  srt : List Member → List Member
  parse : String → Option Int
  now : Int
  newGen : Int → List Pt → Int → Outcome K
  canListen : String → Bool

variable {K : Type}

/-- A decimal digit. -/
def decDigit (c : Char) : Option Nat := if '0' ≤ c ∧ c ≤ '9' then some (c.toNat - '0'.toNat) else none

/-- Decimal digits after a number that has been read. -/
def decDigits : List Char → Nat → Option Nat
  | [], n => some n
  | c :: cs, n => (decDigit c).bind fun d => decDigits cs (10 * n + d)

/-- At least one decimal digit. -/
def decAbs (cs : List Char) : Option Nat := if cs = [] then none else decDigits cs 0

/-- `strconv.Atoi` (external): a sign or none, then decimal digits, and a value of 64 bits. -/
def atoi (s : String) : Option Int := do
  let v ← match s.toList with
    | '-' :: cs => (decAbs cs).map fun n => -(n : Int)
    | '+' :: cs => (decAbs cs).map fun n => (n : Int)
    | cs => (decAbs cs).map fun n => (n : Int)
  if -2 ^ 63 ≤ v ∧ v < 2 ^ 63 then some v else none

/-- `_load_secrets` (signode.go:31-32). -/
def loadSecrets (dir : Dir) (names : List String) : Outcome (List Int) := do
  let blobs ← slurpAll dir names "secret_"
  unmarshalSecretKeys blobs

/-- The time until which everything is dropped (signode.go:21-22, net_caller.go:68): three seconds from now for `_`. -/
def dropTime (w : World K) (text : String) : Outcome Int :=
  if text = "_" then .ok (w.now + (2000000000 + 1000000000)) else (Outcome.ofOption (w.parse text)).orPanic

/-- The default start of requests (signode.go:26, runner.go:3). -/
def startTime (du : Int) : Int := du + (50000000 + 5000000)

/-- `_verify_config_suits_make_kyber_dat` (prot.go:97-101): for both protocols (dkg.go:36-37, dss.go:67-76) and each guest a
generator is made, whose error is fatal. -/
def verifyConfig (w : World K) (members : List Member) (guests : GoMap Nat Guest) (t : Int) : Outcome Unit := do
  let _ ← mapO (fun _ => mapO (fun p : Nat × Guest => (w.newGen p.2.sec (memberPubs members) t).orPanic) guests) [0, 1]
  return ()

/-- One round of the loop in `start_net_caller` (net_caller.go:19-21). -/
def addQueue (addrs : List String) (qs : List (Option String)) (p : Nat × Nat) : Outcome (List (Option String)) := do
  let _ ← (Outcome.ofOption qs[p.1]?).orPanic
  let a ← (Outcome.ofOption addrs[p.2]?).orPanic
  return qs.set p.1 (some a)

/-- `start_net_caller` (net_caller.go:16-22): for each member index the address to which the consumer of its queue connects; none is a
nil channel. -/
def startNetCaller (addrs : List String) (memberToAddr : GoMap Nat Nat) : Outcome (List (Option String)) :=
  memberToAddr.foldl (fun acc p => acc >>= fun qs => addQueue addrs qs p) (.ok (List.replicate memberToAddr.length none))

/-- Where `try_send` (net_caller.go:11-14) puts a message for a member: into the queue to an address, or nowhere if the channel is nil,
since sending to it is not possible. -/
def queueOf (qs : List (Option String)) (i : Int) : Outcome (Option String) :=
  if 0 ≤ i then (Outcome.ofOption qs[i.toNat]?).orPanic else .panic

/-- `_start_net_callers` (prot.go:112-117): one per protocol and guest. -/
def startNetCallers (l : Layout) (guests : GoMap Nat Guest) : Outcome (GoMap (Int × Int) (List (Option String))) :=
  mapO (fun (k : Int × Int) => startNetCaller l.addrs l.memberToAddr >>= fun qs => .ok (k, qs))
    ([0, 1].flatMap fun (pc : Int) => guests.map fun p => (pc, (p.1 : Int)))

/-- `_start_listeners1` (prot.go:127-131) and `start_listeners` (net_listener.go:8-17): the addresses, in any order. -/
def startListeners (w : World K) (guests : GoMap Nat Guest) : Outcome (List String) := do
  let addresses := (uniqueSet (guests.map fun p => p.2.addr)).keys
  let _ ← mapO (fun a => (Outcome.require (w.canListen a)).orPanic) addresses
  return addresses

/-- The process when `run_longterm` or `run_sigs` is called. -/
structure Started where
  layout : Layout
  guests : GoMap Nat Guest
  threshold : Int
  dropUntil : Int
  startAt : Int
  longterms : GoMap Int KeyShare
  callers : GoMap (Int × Int) (List (Option String))
  listen : List String
  deriving DecidableEq

/-- The argument of `dss_init` (signode.go:23-24, longterm_db.go:42-44), in the mode that signs. -/
def loadShares (file : Option (GoMap Int DksDTO)) (guests : GoMap Nat Guest) : Outcome (GoMap Int KeyShare) :=
  match file with
  | some file => loadLongterms (guests.map fun p => ((p.1 : Int), p.2)) file
  | none => .ok []

/-- `main` (signode.go:10-29) with `protocol_start` (prot.go:87-95) up to the call of `run_longterm` or `run_sigs`. -/
def start (w : World K) (a : Cmd) : Outcome Started := do
  let conf ← loadConfig a.conf
  let l ← computeLayout w.srt a.pubdir conf
  let secrets ← loadSecrets a.secdir a.secnames
  let guests ← computeGuests l secrets
  let t ← (Outcome.ofOption (atoi a.threshold)).orPanic
  let du ← dropTime w a.dropUntil
  let longs ← loadShares a.longterms guests
  verifyConfig w l.members guests t
  let callers ← startNetCallers l guests
  let listen ← startListeners w guests
  return ⟨l, guests, t, du, startTime du, longs, callers, listen⟩

/-- What is left open by the files: the generators of the runs, the hash functions, and the numbers drawn. -/
structure Rest (K : Type) where
  y : Int → Nat → Kyb K
  gen : Int → Nat → K
  H : List UInt8 → List UInt8
  SH : Share → List UInt8
  nonce : Nat → Int
  started : Int

/-- The parameters of the program as it signs, in milliseconds. The allowance is that of `_runner_run_guest` (runner.go:42-44), with
the time of all stages (prot.go:54-57). -/
def programCfg (st : Started) (r : Rest K) : Program.Cfg K :=
  let secret := fun g : Int => ((st.guests.get? g.toNat).map Guest.sec).getD 0
  { y := r.y, gen := r.gen, H := r.H, SH := r.SH, members := st.layout.members.length, guests := st.guests.keys.map fun i : Nat => (i : Int),
    secret := secret, participants := memberPubs st.layout.members, threshold := st.threshold, longterms := st.longterms,
    nonce := r.nonce, dropUntil := unixMilli st.dropUntil, started := r.started,
    allow := fun j => Prot.runnerAllowance
      (dssConf (r.y 0 0) r.H r.SH ⟨0, [], st.threshold, none, none, 0⟩ (jobId j) 0 st.layout.members.length) (unixMilli j.start) }

end Verif.Start
