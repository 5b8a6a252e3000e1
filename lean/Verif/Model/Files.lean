import Verif.Model.Layout

/-!
Model of the writing of files (/repo/siggy/src/util/file.go:3-8, 25-29) and of the program keygen (/repo/siggy/src/keygen/keygen.go), of
which any number run at a time and write into one directory, that of temporary files. Files are not removed, and what a program has written
stays as it is.
-/
namespace Verif.Files
open Verif.Point Verif.Layout

/-- The files of the directory. -/
abbrev FileMap := GoMap String (List UInt8)

/-- `os.CreateTemp` (external) appends a random number in decimal to the prefix. -/
def tempName (pre : String) (n : Nat) : String := pre ++ toString n

/-- `_create_temp` (util/file.go:24-28): a new, empty file and its name, which is printed. `os.CreateTemp` draws until the name is not in use,
and fails after 10000 attempts. -/
def createTemp (files : FileMap) (pre : String) (draws : List Nat) : Outcome (FileMap × String) :=
  match (draws.take 10000).find? fun n => (files.get? (tempName pre n)).isNone with
  | some n => .ok (files.set (tempName pre n) [], tempName pre n)
  | none => if 10000 ≤ draws.length then .panic else .err

/-- Where a run of keygen is. -/
inductive Pc where
  /-- Before `save_to_temp(secret_key, "secret_")` (keygen.go:7). -/
  | start
  /-- The file of the secret was created (file.go:6) and is to be written. -/
  | secretMade (name : String) (bytes : List UInt8) (pub : Pt)
  /-- Before `save_to_temp(public_key, "public_")` (keygen.go:7). -/
  | secretSaved (name : String) (pub : Pt)
  /-- The file of the public key was created and is to be written. -/
  | publicMade (secret name : String) (bytes : List UInt8)
  /-- The end of `main`. -/
  | finished (secret name : String)
  /-- A panic, after which a file of the secret may be left. -/
  | crashed (left : Option String)
  deriving DecidableEq, Repr

/-- A run of keygen, after `pick_secret` (keygen.go:6) has drawn the secret. -/
structure Proc where
  secret : Int
  pc : Pc
  deriving DecidableEq, Repr

/-- The next step of a run (keygen.go:6-7 with util/file.go:3-8): to create a file, or to write it. -/
def procStep (files : FileMap) (p : Proc) (draws : List Nat) : Outcome (FileMap × Proc) :=
  match p.pc with
  | .start =>
    match computePub p.secret, Scalar.marshalBinary p.secret with
    | .ok pub, .ok b =>
      match createTemp files "secret_" draws with
      | .ok (files, name) => .ok (files, { p with pc := .secretMade name b pub })
      | .err => .err
      | .panic => .ok (files, { p with pc := .crashed none })
    | _, _ => .ok (files, { p with pc := .crashed none })
  | .secretMade name b pub => .ok (files.set name b, { p with pc := .secretSaved name pub })
  | .secretSaved name pub =>
    match marshalBinary pub with
    | .ok b =>
      match createTemp files "public_" draws with
      | .ok (files, name') => .ok (files, { p with pc := .publicMade name name' b })
      | .err => .err
      | .panic => .ok (files, { p with pc := .crashed (some name) })
    | _ => .ok (files, { p with pc := .crashed (some name) })
  | .publicMade name name' b => .ok (files.set name' b, { p with pc := .finished name name' })
  | _ => .err

/-- The directory and the runs of keygen. -/
structure Sys where
  files : FileMap
  procs : List Proc
  deriving DecidableEq, Repr

/-- What happens: keygen is started, one of its runs makes a step, or another program creates a file, for example one of long-term keys
(`save_gob_to_temp`, util/file.go:10-15). -/
inductive Ev where
  | start (secret : Int)
  | proc (i : Nat) (draws : List Nat)
  | other (name : String) (bytes : List UInt8)
  deriving DecidableEq, Repr

/-- One event. -/
def step (s : Sys) : Ev → Outcome Sys
  | .start secret => .ok { s with procs := s.procs ++ [⟨secret, .start⟩] }
  | .proc i draws =>
    match s.procs[i]? with
    | some p => procStep s.files p draws >>= fun r => .ok ⟨r.1, s.procs.set i r.2⟩
    | none => .err
  | .other name bytes => if (s.files.get? name).isNone then .ok { s with files := s.files.set name bytes } else .err

/-- A history. -/
def run : Sys → List Ev → Outcome Sys
  | s, [] => .ok s
  | s, e :: h => step s e >>= fun s => run s h

end Verif.Files
