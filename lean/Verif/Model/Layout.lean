import Verif.Model.PublicKey
import Verif.Model.GoMap

/-!
Model of /repo/siggy/src/{base/base.go, keygen/keygen.go, layout/, util/} and of /repo/hostcomp/hostcomp.lisp.

File names, labels and addresses are `String`s, hex texts are byte strings. A directory is a function from names to
contents. `sort.Slice` is any function meeting its contract (`SortContract`).
-/
namespace Verif.Layout
open Verif.Point

/-- A loop with an early exit: apply `f` to each element. -/
def mapO {α β : Type} (f : α → Outcome β) : List α → Outcome (List β)
  | [] => .ok []
  | x :: xs => do
    let y ← f x
    let ys ← mapO f xs
    return y :: ys

/-- A directory. -/
abbrev Dir := String → Option (List UInt8)

section Util
/-- `slurp_all1` (util/file.go:40-46): panics if a file cannot be read. -/
def slurpAll1 (dir : Dir) (names : List String) : Outcome (List (List UInt8)) :=
  mapO (fun nm => (Outcome.ofOption (dir nm)).orPanic) names

/-- `_filter_prefix` (util/file.go:48-53), on names. -/
def filterPrefix (names : List String) (pre : String) : List String := names.filter fun n => n.startsWith pre

/-- `slurp_all` (util/file.go:31-38); `names` are the entries of the directory. -/
def slurpAll (dir : Dir) (names : List String) (pre : String) : Outcome (List (List UInt8)) :=
  slurpAll1 dir (filterPrefix names pre)

/-- The map built by `unique` (util/prim.go:11-13). -/
def uniqueSet (xs : List String) : GoMap String Bool := xs.foldl (fun m x => m.set x true) []

/-- `unique` (util/prim.go:11-16): the keys of the map, in any order. -/
def UniqueResult (xs results : List String) : Prop := results.Perm (uniqueSet xs).keys
end Util

section Base
/-- `compute_pub` (base/base.go:18-19). -/
def computePub (secret : Int) : Outcome Pt := mulBase secret

/-- `hex.EncodeToString` (external): lower case digits. -/
def hexEncode (b : List UInt8) : List UInt8 :=
  b.flatMap fun (v : UInt8) => [PublicKey.hexChar (v >>> 4), PublicKey.hexChar (v &&& 15)]

/-- `pubhex` (base/base.go:21-24). -/
def pubhex (p : Pt) : Outcome (List UInt8) := do
  let ba ← (marshalBinary p).orPanic
  return hexEncode ba

/-- `unmarshal_public_keys` (base/base.go:26-27, 33-39). -/
def unmarshalPublicKeys (blobs : List (List UInt8)) : Outcome (List Pt) := mapO (fun b => (unmarshalBinary b).orPanic) blobs

/-- `unmarshal_secret_keys` (base/base.go:29-30, 33-39). -/
def unmarshalSecretKeys (blobs : List (List UInt8)) : Outcome (List Int) :=
  mapO (fun b => (Scalar.unmarshalBinary b).orPanic) blobs

/-- `chain_valid` (base/base.go:41). -/
def chainValid (p : Pt) : Bool := validPublicKey (.pt p)
end Base

section Keygen
/-- What `keygen` (keygen/keygen.go:4-7) writes into the secret and the public file, after the secret was drawn. -/
def keygen (secret : Int) : Outcome (List UInt8 × List UInt8) := do
  let pub ← computePub secret
  let sb ← (Scalar.marshalBinary secret).orPanic
  let pb ← (marshalBinary pub).orPanic
  return (sb, pb)
end Keygen

section Member
/-- `member` (layout/member.go:3-8). -/
structure Member where
  pubfile : String
  index : Nat
  pub : Pt
  pubhex : List UInt8
  deriving DecidableEq, Repr

/-- The contract of `sort.Slice` with `pubhex` comparison (layout/member.go:20-21): a permutation without descents. -/
def SortContract (srt : List Member → List Member) : Prop :=
  ∀ ms, (srt ms).Perm ms ∧ (srt ms).Pairwise fun a b => ¬ b.pubhex < a.pubhex

/-- `load_and_sort` (layout/member.go:14-23). -/
def loadAndSort (srt : List Member → List Member) (dir : Dir) (pubfiles : List String) : Outcome (List Member) := do
  let blobs ← slurpAll1 dir pubfiles
  let pubkeys ← unmarshalPublicKeys blobs
  let results ← mapO (fun (fp : String × Pt) => do
    let h ← pubhex fp.2
    return (⟨fp.1, 0, fp.2, h⟩ : Member)) (pubfiles.zip pubkeys)
  return (srt results).mapIdx fun i m => { m with index := i }

/-- `map_pubfile_to_index` (layout/member.go:25-29). -/
def mapPubfileToIndex (members : List Member) : GoMap String Nat :=
  members.foldl (fun r m => r.set m.pubfile m.index) []

/-- `find_member_index` (layout/member.go:32-35). -/
def findMemberIndex (pub : Pt) (members : List Member) : Int :=
  match members.findIdx? fun m => equal m.pub pub with
  | some i => i
  | none => -1

/-- `member_pubs` (layout/member.go:37-41). -/
def memberPubs (members : List Member) : List Pt := members.map Member.pub
end Member

section Config
/-- `config` (layout/config.go:3-9). -/
structure Config where
  hostlabels : List String
  addrs : List String
  members : List (List String)
  pubfiles : List String
  deriving DecidableEq, Repr

/-- A JSON value as decoded by `encoding/json` into an `interface{}`. -/
inductive Json where
  | null
  | bool (b : Bool)
  | num (n : Int)
  | str (s : String)
  | arr (xs : List Json)
  | obj (kvs : List (String × Json))

/-- The type assertion `.(string)`. -/
def Json.asString : Json → Outcome String
  | .str s => .ok s
  | _ => .panic

/-- The type assertion `.([]interface{})`. -/
def Json.asArray : Json → Outcome (List Json)
  | .arr xs => .ok xs
  | _ => .panic

/-- `_extract_strings` (layout/config.go:22-27). -/
def extractStrings (j : Json) : Outcome (List String) := do
  let xs ← j.asArray
  mapO Json.asString xs

/-- `_extract_string_lists` (layout/config.go:29-37). -/
def extractStringLists (j : Json) : Outcome (List (List String)) := do
  let xs ← j.asArray
  mapO extractStrings xs

/-- Indexing a slice. -/
def nth (xs : List Json) (i : Nat) : Outcome Json := (Outcome.ofOption xs[i]?).orPanic

/-- `load_config` (layout/config.go:11-20) after the file was read and decoded; the directory is kept apart. -/
def loadConfig (conf : Json) : Outcome Config := do
  let triple ← conf.asArray
  let hostlabels ← nth triple 0 >>= extractStrings
  let addrs ← nth triple 1 >>= extractStrings
  let members ← nth triple 2 >>= extractStringLists
  let pubfiles ← nth triple 3 >>= extractStrings
  return ⟨hostlabels, addrs, members, pubfiles⟩

/-- A host entry of config.in: label, address, member files. -/
structure Host where
  label : String
  addr : String
  members : List String
  deriving DecidableEq, Repr

/-- `expand-config` (hostcomp/hostcomp.lisp:11-18): the list it writes, as JSON (the translation from s-expressions is
done by another tool; the empty list is taken to become the empty array). -/
def expandConfig (entries : List Host) : Json :=
  .arr [.arr (entries.map fun e => .str e.label), .arr (entries.map fun e => .str e.addr),
    .arr (entries.map fun e => .arr (e.members.map .str)), .arr ((entries.flatMap Host.members).map .str)]
end Config

section Layout
/-- `layout` (layout/layout.go:3-8). -/
structure Layout where
  addrs : List String
  addrMembers : List (List Nat)
  members : List Member
  memberToAddr : GoMap Nat Nat
  deriving DecidableEq, Repr

/-- `_conf_members_as_indices` (layout/layout.go:19-25): a name missing in the map reads as 0. -/
def confMembersAsIndices (conf : Config) (membermap : GoMap String Nat) : List (List Nat) :=
  conf.members.map fun ss => ss.map fun s => (membermap.get? s).getD 0

/-- `_compute_member_to_addr` (layout/layout.go:27-32). -/
def computeMemberToAddr (memberSets : List (List Nat)) : GoMap Nat Nat :=
  memberSets.zipIdx.foldl (fun r (p : List Nat × Nat) => p.1.foldl (fun r m => r.set m p.2) r) []

/-- `compute_layout` (layout/layout.go:10-17). -/
def computeLayout (srt : List Member → List Member) (dir : Dir) (conf : Config) : Outcome Layout := do
  let members ← loadAndSort srt dir conf.pubfiles
  let addrMembers := confMembersAsIndices conf (mapPubfileToIndex members)
  return ⟨conf.addrs, addrMembers, members, computeMemberToAddr addrMembers⟩

/-- `guest` (layout/layout.go:35-41). -/
structure Guest where
  index : Nat
  sec : Int
  pub : Pt
  addrIndex : Nat
  addr : String
  deriving DecidableEq, Repr

/-- One round of the loop in `compute_guests` (layout/layout.go:49-58). -/
def addGuest (l : Layout) (results : GoMap Nat Guest) (s : Int) : Outcome (GoMap Nat Guest) := do
  let pub ← computePub s
  let midx := findMemberIndex pub l.members
  if midx ≠ -1 then do
    let m ← (Outcome.ofOption l.members[midx.toNat]?).orPanic
    let addrIndex := (l.memberToAddr.get? midx.toNat).getD 0
    let addr ← (Outcome.ofOption l.addrs[addrIndex]?).orPanic
    return results.set midx.toNat ⟨midx.toNat, s, m.pub, addrIndex, addr⟩
  else return results

/-- `compute_guests` (layout/layout.go:45-60). -/
def computeGuests (l : Layout) (secrets : List Int) : Outcome (GoMap Nat Guest) :=
  secrets.foldl (fun acc s => do
    let r ← acc
    addGuest l r s) (.ok [])
end Layout

end Verif.Layout
