import Verif.Model.Dkg
import Verif.Model.Tables

/-!
Model of the global tables of /repo/siggy/src/protocol/dss.go by which a signing run finds its data: `dss_kdat_args`, with the
generator of the run as key, and `dss_kdats`, with the run itself as key. Objects are numbered in the order in which they are
made, and the numbers stand for pointers. Each access to a table holds its lock, and what a run does it does holding its own
lock, so a history is a sequence of calls for any runs in any order.

In `Verif.Dkg` a run has its data to itself, and nothing of this is seen.
-/
namespace Verif.Kdats
open Verif.Prot Verif.Dto Verif.Dss Verif.Dkg Verif.Tables

/-- `kdat_args` (dss.go:50-54). -/
structure Args where
  secret : Int
  participants : List Point.Pt
  threshold : Int
  deriving DecidableEq

/-- `protocol_run` (prot.go:136-151), as far as dkg.go and dss.go use it: its protocol (is it DSS), `guest_index`, `id`,
`kyber_dat`, `prot_dat`, `terminated`, and what it gave to `push_output`. -/
structure RunObj where
  signs : Bool
  guest : Int
  id : String
  gen : Nat
  qual : Option (List Int)
  terminated : Bool
  out : List Output

/-- Generators, DSS objects and runs, and the tables (dss.go:55-58, 12). An entry of `dss_kdats` may be nil. -/
structure Mem (K : Type) where
  gens : List K
  dsss : List DSS
  runs : List RunObj
  args : GoMap Nat Args
  kdats : GoMap Nat (Option Nat)
  docs : Docs

/-- What stays the same: the code of the generator, the hash functions, the secrets of the guests, the public keys of the
members, the threshold and the long-term shares. -/
structure World (K : Type) where
  y : Kyb K
  H : List UInt8 → List UInt8
  SH : Share → List UInt8
  secret : Int → Int
  pubs : List Point.Pt
  threshold : Int
  longterms : GoMap Int KeyShare

/-- A call of the step of a stage, or of its processor with what was unmarshalled. -/
inductive Call where
  | step (n : Nat)
  | proc (n : Nat) (o : Obj)

/-- What happens. -/
inductive Ev (K : Type) where
  /-- `_verify_config_suits_make_kyber_dat` (prot.go:97-101) makes a generator for a guest, for the DSS protocol. -/
  | verify (guest : Int) (k : K)
  /-- `_new_run` (prot.go:174-183). -/
  | new (signs : Bool) (guest : Int) (id : String) (k : K)
  /-- A step or processor of a run; `PartialSig` draws `nonce`. -/
  | call (r : Nat) (f : Call) (nonce : Int)
  /-- A document is registered or deregistered. -/
  | doc (op : DocOp)
  /-- `cleanup` of a run (prot.go:209-210). -/
  | cleanup (r : Nat)

variable {K : Type} (c : World K)

/-- `make_dss_kdat` (dss.go:67-76), for a new generator in state `k`. -/
def makeDssKdat (M : Mem K) (guest : Int) (k : K) : Mem K :=
  { M with gens := M.gens ++ [k], args := M.args.set M.gens.length ⟨c.secret guest, c.pubs, c.threshold⟩ }

/-- `make_dkg_kdat` (dkg.go:36-37). -/
def makeDkgKdat (M : Mem K) (k : K) : Mem K := { M with gens := M.gens ++ [k] }

/-- `_new_run` (prot.go:174-183): its generator is the last one made. -/
def newRun (M : Mem K) (signs : Bool) (guest : Int) (id : String) (k : K) : Mem K :=
  let M' := if signs then makeDssKdat c M guest k else makeDkgKdat M k
  { M' with runs := M'.runs ++ [⟨signs, guest, id, M.gens.length, none, false, []⟩] }

/-- `dss_kdat` (dss.go:59-61): nil if there is no entry. -/
def dssKdat (M : Mem K) (r : Nat) : Option Nat := (M.kdats.get? r).join

/-- `dss_cleanup` (dss.go:62-65) and `dkg_cleanup` (dkg.go:34); then `terminated` is set (prot.go:209-210). -/
def cleanup (M : Mem K) (r : Nat) (o : RunObj) : Mem K :=
  let M' := { M with runs := M.runs.set r { o with terminated := true } }
  if o.signs then { M' with args := M'.args.delete o.gen, kdats := M'.kdats.delete r } else M'

/-- A step or processor of dkg.go. It works on the generator and on `prot_dat` of its run (`_dkg_kdat`, `_dkg_pdat`,
dkg.go:39-43) and on nothing else but the outputs. -/
def dkgCall (f : Data K → Outcome (Data K × List (Act Dto))) (M : Mem K) (r : Nat) (o : RunObj) : Outcome (Mem K × List (Act Dto)) :=
  match M.gens[o.gen]? with
  | none => .panic
  | some k => match f ⟨k, o.qual, none, o.out⟩ with
    | .panic => .panic
    | .err => .err
    | .ok (u, as) => .ok ({ M with gens := M.gens.set o.gen u.kyb, runs := M.runs.set r { o with qual := u.qual, out := u.out } }, as)

/-- `st_init` (dss.go:78-89). With no entry in `dss_kdat_args` the secret is nil, and `NewDSS` panics. When it fails, the
entry of the run becomes nil. As in `Dkg.stInit`, a missing document panics here. -/
def stInit (M : Mem K) (r : Nat) (o : RunObj) : Outcome (Mem K × List (Act Dto)) :=
  match M.gens[o.gen]? with
  | none => .panic
  | some k => match c.y.distKeyShare k with
    | .panic => .panic
    | .err => .ok (M, [.abandon])
    | .ok random => match c.longterms.get? o.guest, docFor M.docs o.guest o.id, M.args.get? o.gen with
      | some long, some doc, some a => match newDSS c.H ⟨a.secret, a.participants, long, random, c.y.qual k, doc, a.threshold⟩ with
        | .panic => .panic
        | .err => .ok ({ M with kdats := M.kdats.set r none }, [.abandon])
        | .ok d => .ok ({ M with dsss := M.dsss ++ [d], kdats := M.kdats.set r (some M.dsss.length) }, [])
      | _, _, _ => .panic

/-- `st_partsig` (dss.go:91-94). -/
def stPartsig (nonce : Int) (M : Mem K) (r : Nat) (o : RunObj) : Outcome (Mem K × List (Act Dto)) :=
  match dssKdat M r with
  | none => .panic
  | some p => match M.dsss[p]? with
    | none => .panic
    | some d =>
      let M' := { M with dsss := M.dsss.set p (partialSig c.H c.SH nonce d).1 }
      match (partialSig c.H c.SH nonce d).2 with
      | .panic => .panic
      | .err => .ok (M', [.abandon])
      | .ok sig => match partsigToDto sig with
        | .panic => .panic
        | .err => .ok (M', [])
        | .ok dto => match o.qual with
          | none => .panic
          | some q => .ok (M', [.multicast q opDssPartsig (.partsig dto)])

/-- `pr_partsig` (dss.go:96-97). -/
def prPartsig (M : Mem K) (r : Nat) : Obj → Outcome (Mem K × List (Act Dto))
  | .partsig s => match dssKdat M r with
    | none => .panic
    | some p => match M.dsss[p]? with
      | none => .panic
      | some d => match (processPartialSig c.H c.SH d s).2 with
        | .panic => .panic
        | _ => .ok ({ M with dsss := M.dsss.set p (processPartialSig c.H c.SH d s).1 }, [])
  | _ => .panic

/-- `dss_st_final` (dss.go:99-106). -/
def dssStFinal (M : Mem K) (r : Nat) (o : RunObj) : Outcome (Mem K × List (Act Dto)) :=
  match dssKdat M r with
  | none => .panic
  | some p => match M.dsss[p]? with
    | none => .panic
    | some d =>
      if !enoughPartialSig d then .ok (M, [.abandon])
      else match signature c.H d with
        | .panic => .panic
        | .err => .ok (M, [.abandon])
        | .ok s => .ok ({ M with runs := M.runs.set r { o with out := o.out ++ [.sig s] } }, [])

/-- The function that is called: the stages of dkg.go come first, then those of dss.go (dss.go:40-48). -/
def funOf (nonce : Int) (o : RunObj) : Call → Option (Mem K → Nat → Outcome (Mem K × List (Act Dto)))
  | .step n =>
    if n = 9 ∧ o.signs then some fun M r => stInit c M r o
    else if n = 10 ∧ o.signs then some fun M r => stPartsig c nonce M r o
    else if n = 11 ∧ o.signs then some fun M r => dssStFinal c M r o
    else ((dkgStages c.y)[n]?.bind (·.step)).map fun f M r => dkgCall f M r o
  | .proc n x =>
    if n = 10 ∧ o.signs then some fun M r => prPartsig c M r x
    else ((dkgStages c.y)[n]?.bind (·.proc)).map fun f M r => dkgCall (fun u => f u x) M r o

/-- A call for a run. After `cleanup` there is none: `_run_timed_steps` has left its loop, and a message for the last stage has
no processor while one for an earlier stage is late (prot.go:196, 234-236). -/
def callRun (M : Mem K) (r : Nat) (f : Call) (nonce : Int) : Outcome (Mem K × List (Act Dto)) :=
  match M.runs[r]? with
  | none => .err
  | some o => if o.terminated then .err else match funOf c nonce o f with
    | none => .err
    | some g => g M r

/-- One event. -/
def step (M : Mem K) : Ev K → Outcome (Mem K)
  | .verify g k => .ok (makeDssKdat c M g k)
  | .new s g id k => .ok (newRun c M s g id k)
  | .call r f nonce => callRun c M r f nonce >>= fun p => .ok p.1
  | .doc op => docStep M.docs op >>= fun d => .ok { M with docs := d }
  | .cleanup r => match M.runs[r]? with
    | none => .err
    | some o => if o.terminated then .err else .ok (cleanup M r o)

/-- A history. -/
def exec (M : Mem K) : List (Ev K) → Outcome (Mem K)
  | [] => .ok M
  | e :: h => step c M e >>= fun M' => exec M' h

/-- The program starts (dss.go:22-26, 55-58). -/
def start (guests : List Int) : Mem K := ⟨[], [], [], [], [], dssInit [] guests⟩

end Verif.Kdats
