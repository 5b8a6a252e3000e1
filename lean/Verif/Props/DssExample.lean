import Verif.Props.Dss

/-! A concrete session of three nodes with secrets 1, 2, 3, threshold 2, polynomials 5 + 7x and 11 + 13x. -/
namespace Verif.Props
open Verif.Point Verif.Schnorr Verif.Dss

/-- The public keys of the example. -/
def exPubs : List Pt := [timesAdd base 1, timesAdd base 2, timesAdd base 3]
/-- The hash of shares of the example. -/
def exSH (s : Share) : List UInt8 := [UInt8.ofNat s.I.toNat]
/-- The arguments of node `i`. -/
def exArgs (i : Nat) : Args :=
  ⟨i + 1, exPubs, ⟨⟨i, 5 + 7 * (i + 1)⟩, [5, 7].map (timesAdd base)⟩, ⟨⟨i, 11 + 13 * (i + 1)⟩, [11, 13].map (timesAdd base)⟩,
    [0, 1, 2], 9, 2⟩
/-- The fresh signer of node `i`. -/
def exNode (i : Nat) : DSS :=
  ⟨i + 1, timesAdd base (i + 1), i, exPubs, 2, (exArgs i).long, (exArgs i).random, [0, 1, 2], 9, [], [], false,
    sessionIDOf toyHash (exArgs i).long (exArgs i).random⟩

theorem exNode_new : newDSS toyHash (exArgs 0) = .ok (exNode 0) ∧ newDSS toyHash (exArgs 1) = .ok (exNode 1) := by
  decide +kernel

theorem exNode_keys (i : Nat) : Keys (exNode i) [5, 7] [11, 13] ∧ Consistent (exNode i) [5, 7] [11, 13] := by
  refine ⟨⟨rfl, rfl, by simp, by decide, ⟨by show (0 : Int) ≤ 9; omega, by show (9 : Int) < 2 ^ 256; omega⟩⟩, ⟨?_, ?_⟩⟩
  · show ((5 + 7 * (i + 1) : Int) - _) % _ = 0
    rw [peval, peval, peval]
    have : (5 + 7 * ((i : Int) + 1)) - (((5 : Nat) : Int) + ((exNode i).index + 1) * (((7 : Nat) : Int) + ((exNode i).index + 1) * 0)) = 0 := by
      show (5 + 7 * ((i : Int) + 1)) - (((5 : Nat) : Int) + ((i : Int) + 1) * (((7 : Nat) : Int) + ((i : Int) + 1) * 0)) = 0
      push_cast; ring
    rw [this]; rfl
  · show ((11 + 13 * (i + 1) : Int) - _) % _ = 0
    rw [peval, peval, peval]
    have : (11 + 13 * ((i : Int) + 1)) - (((11 : Nat) : Int) + ((exNode i).index + 1) * (((13 : Nat) : Int) + ((exNode i).index + 1) * 0)) = 0 := by
      show (11 + 13 * ((i : Int) + 1)) - (((11 : Nat) : Int) + ((i : Int) + 1) * (((13 : Nat) : Int) + ((i : Int) + 1) * 0)) = 0
      push_cast; ring
    rw [this]; rfl

/-- The partial signature of node `i` made with nonce 17. -/
def exPartial (i : Nat) : PartialSig :=
  match (partialSig toyHash exSH 17 (exNode i)).2 with
  | .ok ps => ps
  | _ => ⟨⟨0, 0⟩, [], none⟩

/-- The session of node 0: it issues its share and accepts that of node 1. -/
def exRun : DSS := run toyHash exSH (exNode 0) [.partialSig 17, .process (exPartial 1)]

/-- It ends with a signature, which verifies; a share altered by one is refused. -/
def exCheck : Bool :=
  decide (exRun.partials.map Share.I = [0, 1]) && (signature toyHash exRun >>= verify toyHash (.pt (timesAdd base 5)) 9).isOk &&
  !(processPartialSig toyHash exSH (exNode 0) { exPartial 1 with part := ⟨1, (exPartial 1).part.V + 1⟩ }).2.isOk

/-- The hypotheses of C20-C25 are met by this session. -/
theorem exCheck_ok : exCheck = true := by decide +kernel

theorem exDuplicate :
    ¬ ((run toyHash exSH (exNode 0) [.process (exPartial 0), .partialSig 17]).partials.map Share.I).Nodup ∧
    enoughPartialSig (run toyHash exSH (exNode 0) [.process (exPartial 0), .partialSig 17]) = true ∧
    signature toyHash (run toyHash exSH (exNode 0) [.process (exPartial 0), .partialSig 17]) = .err := by
  decide +kernel

/-- C20 is false without the assumption on the first call: if the own partial signature (issued, say, before a restart
and sent back by a peer) is processed before `PartialSig` is called, then the own index is collected twice, `EnoughPartialSig`
is true and yet there is no signature. -/
theorem C20_counterexample :
    ∃ (H : List UInt8 → List UInt8) (SH : Share → List UInt8) (a : Args) (d : DSS) (ls rs : List Nat) (ps : PartialSig) (k : Int),
      (∀ b, (H b).length = 32) ∧ newDSS H a = .ok d ∧ Keys d ls rs ∧ Consistent d ls rs ∧
      ¬ ((run H SH d [.process ps, .partialSig k]).partials.map Share.I).Nodup ∧
      enoughPartialSig (run H SH d [.process ps, .partialSig k]) = true ∧
      signature H (run H SH d [.process ps, .partialSig k]) = .err := by
  have h1 : ∀ b, (toyHash b).length = 32 := fun b => by simp [toyHash]
  exact ⟨toyHash, exSH, exArgs 0, exNode 0, [5, 7], [11, 13], exPartial 0, 17, h1, exNode_new.1,
    (exNode_keys 0).1, (exNode_keys 0).2, exDuplicate⟩

/-- C21 at work: the partial signature of node 1 crashes node 0 if its signature is missing or if its index is negative,
and is refused if its index is that of nobody. -/
def exCrash : Bool :=
  decide ((processPartialSig toyHash exSH (exNode 0) { exPartial 1 with signature := none }).2 = .panic) &&
  decide ((processPartialSig toyHash exSH (exNode 0) { exPartial 1 with part := ⟨-1, (exPartial 1).part.V⟩ }).2 = .panic) &&
  !decide ((processPartialSig toyHash exSH (exNode 0) { exPartial 1 with part := ⟨3, (exPartial 1).part.V⟩, signature := none }).2 = .panic)

theorem exCrash_ok : exCrash = true := by decide +kernel

/-- C26 at work: with the share of node 0 only, the recovered scalar can be 0 or 1, depending on the second share. -/
example : recoverSecret [⟨0, 4⟩, ⟨1, 8⟩] 2 = .ok 0 ∧ recoverSecret [⟨0, 4⟩, ⟨1, 7⟩] 2 = .ok 1 := by decide +kernel

end Verif.Props
