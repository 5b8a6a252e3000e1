import Verif.Model.Dto
import Verif.Model.Layout

/-!
Tests of the model, not proofs of anything about the code: the files that the real program left in /repo/siggy/run (three keys made
by keygen, the configuration made by hostcomp, and the long-term key shares made by signode with threshold 2) are what the model
reads, computes and writes. The bytes are copied from these files; `longterms` is the content of the gob stream in
/repo/siggy/run/test_keys/p1_secret/longterms_t2.
-/
namespace Verif.Props.RepoFiles
open Verif Verif.Point Verif.Layout Verif.Dto

/-- /repo/siggy/run/test_keys/p1_secret/secret_2603801145. -/
def secret_2603801145 : List UInt8 :=
    [226, 74, 25, 184, 222, 219, 216, 166, 63, 64, 55, 186, 214, 146, 161, 11, 134, 104, 232, 89, 53, 191, 73, 86, 85, 122,
    97, 197, 247, 133, 107, 218]

/-- /repo/siggy/run/test_keys/p1_secret/secret_3405618915. -/
def secret_3405618915 : List UInt8 :=
    [106, 255, 77, 1, 98, 168, 146, 151, 32, 178, 222, 204, 157, 38, 86, 246, 9, 43, 221, 127, 27, 149, 193, 217, 123, 228,
    253, 114, 90, 107, 248, 52]

/-- /repo/siggy/run/test_keys/p1_secret/secret_701823998. -/
def secret_701823998 : List UInt8 :=
    [217, 198, 106, 68, 144, 243, 158, 122, 141, 187, 92, 187, 75, 54, 110, 60, 71, 4, 44, 234, 218, 48, 68, 49, 44, 126,
    251, 162, 165, 67, 54, 91]

/-- /repo/siggy/run/test_keys/public/public_3929526547. -/
def public_3929526547 : List UInt8 :=
    [116, 94, 126, 105, 75, 72, 122, 113, 157, 185, 165, 57, 45, 121, 60, 107, 111, 182, 58, 127, 226, 63, 132, 205, 9, 99,
    251, 147, 160, 247, 110, 31, 0]

/-- /repo/siggy/run/test_keys/public/public_3655994962. -/
def public_3655994962 : List UInt8 :=
    [36, 110, 105, 135, 49, 65, 206, 53, 244, 42, 128, 62, 246, 95, 58, 115, 113, 244, 189, 90, 242, 92, 9, 254, 169, 55,
    114, 78, 168, 217, 192, 224, 1]

/-- /repo/siggy/run/test_keys/public/public_1557108962. -/
def public_1557108962 : List UInt8 :=
    [123, 73, 191, 230, 99, 226, 41, 104, 101, 206, 184, 95, 253, 221, 228, 12, 82, 22, 146, 162, 23, 63, 202, 250, 60, 245,
    17, 119, 123, 197, 52, 155, 1]

/-- The constant commitment in longterms_t2, the public key. -/
def commit0 : List UInt8 :=
    [167, 208, 35, 36, 189, 42, 101, 235, 56, 36, 196, 178, 233, 78, 208, 132, 216, 89, 42, 160, 229, 185, 49, 38, 102, 106,
    14, 135, 2, 8, 86, 249, 1]

/-- The linear commitment. -/
def commit1 : List UInt8 :=
    [43, 225, 112, 115, 40, 0, 107, 254, 235, 135, 113, 145, 21, 87, 194, 143, 24, 169, 148, 197, 204, 222, 47, 197, 222,
    24, 232, 142, 224, 247, 90, 89, 1]

/-- The share of guest 0. -/
def share0 : List UInt8 :=
    [131, 134, 83, 182, 227, 95, 201, 198, 169, 121, 14, 8, 230, 87, 224, 60, 234, 126, 177, 51, 111, 129, 57, 145, 234,
    207, 163, 81, 210, 2, 237, 32]

/-- The share of guest 1. -/
def share1 : List UInt8 :=
    [157, 146, 212, 108, 191, 81, 53, 111, 27, 199, 229, 69, 43, 130, 146, 105, 100, 119, 252, 158, 162, 49, 240, 189, 86,
    240, 129, 195, 91, 228, 237, 232]

/-- The share of guest 2. -/
def share2 : List UInt8 :=
    [183, 159, 85, 34, 155, 66, 161, 23, 142, 22, 188, 129, 112, 173, 68, 149, 222, 113, 72, 9, 212, 226, 167, 232, 195, 17,
    96, 52, 229, 198, 238, 176]

/-- longterms_t2. -/
def longterms : GoMap Int DksDTO :=
  [(2, ⟨[commit0, commit1], ⟨2, share2⟩⟩), (1, ⟨[commit0, commit1], ⟨1, share1⟩⟩), (0, ⟨[commit0, commit1], ⟨0, share0⟩⟩)]

/-- The directory of public keys. -/
def publicDir : Dir := fun n =>
  if n = "public_3929526547" then some public_3929526547 else if n = "public_3655994962" then some public_3655994962
  else if n = "public_1557108962" then some public_1557108962 else none

/-- The directory of secret keys. -/
def secretDir : Dir := fun n =>
  if n = "secret_2603801145" then some secret_2603801145 else if n = "secret_3405618915" then some secret_3405618915
  else if n = "secret_701823998" then some secret_701823998 else none

/-- /repo/siggy/run/config.in. -/
def configIn : List Host := [⟨"h1", "127.0.0.1:14001", ["public_3929526547", "public_3655994962", "public_1557108962"]⟩]

/-- /repo/siggy/run/config.out. -/
def configOut : Json :=
  .arr [.arr [.str "h1"], .arr [.str "127.0.0.1:14001"],
    .arr [.arr [.str "public_3929526547", .str "public_3655994962", .str "public_1557108962"]],
    .arr [.str "public_3929526547", .str "public_3655994962", .str "public_1557108962"]]

/-- hostcomp makes config.out from config.in. -/
example : expandConfig configIn = configOut := rfl

/-- keygen writes such a pair of files, when the secret is the one it drew. -/
def keygenB (secret pub : List UInt8) : Bool :=
  decide ((Scalar.unmarshalBinary secret >>= keygen) = .ok (secret, pub))

theorem keygen_files : keygenB secret_701823998 public_3655994962 = true := by decide +kernel

/-- A sort of members by hex text. -/
def ins (m : Member) : List Member → List Member
  | [] => [m]
  | x :: xs => if m.pubhex < x.pubhex then m :: x :: xs else x :: ins m xs

/-- See `ins`. -/
def srt : List Member → List Member
  | [] => []
  | m :: ms => ins m (srt ms)

/-- The layout and the guests, from the files. -/
def guests : Outcome (Layout × GoMap Nat Guest) := do
  let conf ← loadConfig configOut
  let l ← computeLayout srt publicDir conf
  let secrets ← slurpAll1 secretDir ["secret_2603801145", "secret_3405618915", "secret_701823998"] >>= unmarshalSecretKeys
  let gs ← computeGuests l secrets
  return (l, gs)

/-- The order of the members is by public key, all three are guests, at the one address. -/
def guestsB : Bool :=
  match guests with
  | .ok (l, gs) =>
    decide (l.members.map (fun m => (m.pubfile, m.index)) =
      [("public_3655994962", 0), ("public_3929526547", 1), ("public_1557108962", 2)]) &&
    decide (l.addrMembers = [[1, 0, 2]]) &&
    decide ((List.range 4).map (fun i => (gs.get? i).map fun g => (g.index, g.sec, g.addr)) =
      [some (0, BigInt.setBytes secret_701823998, "127.0.0.1:14001"), some (1, BigInt.setBytes secret_3405618915, "127.0.0.1:14001"),
       some (2, BigInt.setBytes secret_2603801145, "127.0.0.1:14001"), none])
  | _ => false

theorem guests_files : guestsB = true := by decide +kernel

/-- Three guests. -/
def three : GoMap Int Unit := [(0, ()), (1, ()), (2, ())]

/-- The key shares are read, and would be written, as in the file. -/
def longtermsB : Bool :=
  match loadLongterms three longterms with
  | .ok lts => decide (saveLongterms lts = .ok longterms)
  | _ => false

/-- Each share is the value of the committed polynomial at one more than the index of the guest; the public key is valid. -/
def sharesB : Bool :=
  match loadLongterms three longterms with
  | .ok lts => lts.all fun p => match p.2.commits, mulBase p.2.share.V with
    | [c0, c1], .ok q => match Point.mul (p.1 + 1) c1 with
      | .ok r => decide (q = Point.add c0 r) && decide (p.2.share.I = p.1) && chainValid c0
      | _ => false
    | _, _ => false
  | _ => false

theorem longterms_files : longtermsB = true := by decide +kernel
theorem shares_files : sharesB = true := by decide +kernel

end Verif.Props.RepoFiles
