import Verif.Model.Point

/-!
Model of the pointer behaviour of /repo/ch/core/services/signatures/secp256k1/point.go: a point is an object with two pointers to field
elements, which live in a heap of `big.Int`s; the methods read operands through pointers that may alias the receiver, write some elements
in place and replace others by new ones. Line references are to point.go unless a file is named. That `math/big` and btcec read their
operands before they write, and that btcec returns new integers, is trusted. The scalar of `Mul` is a value.
-/
namespace Verif.PointHeap
open Verif.Point Verif.Field

/-- The heap: the integers behind the field elements, the first address not in use, the objects (the addresses of X and Y), and the state
of the random stream. -/
structure Heap (R : CStream) where
  elt : Nat → Int
  free : Nat
  pts : List (Nat × Nat)
  rnd : R.State

/-- A method call; the first number of those that write is the receiver. Objects are numbered in the order of their creation. -/
inductive Call where
  | newPoint
  | null (p : Nat)
  | base (p : Nat)
  | pick (p : Nat) (fuel : Nat)
  | set (p a : Nat)
  | clone (a : Nat)
  | embed (p : Nat) (data : List UInt8)
  | add (p a b : Nat)
  | sub (p a b : Nat)
  | neg (p a : Nat)
  | mul (p : Nat) (s : Int) (a : Nat)
  | mulBase (p : Nat) (s : Int)
  | equal (a b : Nat)
  | marshal (a : Nat)
  | longMarshal (a : Nat)
  | unmarshal (p : Nat) (buf : List UInt8)

variable {R : CStream}

/-- Write to an element in place. -/
def store (h : Heap R) (i : Nat) (v : Int) : Heap R := { h with elt := fun j => if j = i then v else h.elt j }

/-- `modQ` in place (field.go:34-44). -/
def modQAt (h : Heap R) (i : Nat) : Heap R := store h i (modQ (h.elt i))

/-- `Set` and `SetInt` of a field element (field.go:88-97). -/
def setAt (h : Heap R) (i : Nat) (v : Int) : Heap R := modQAt (store h i v) i

/-- `Neg` of a field element (field.go:105-108). -/
def negAt (h : Heap R) (i j : Nat) : Heap R := modQAt (store h i (-(h.elt j))) i

/-- A new element with a value; its address is the `free` of the heap before. -/
def alloc (h : Heap R) (v : Int) : Heap R := { store h h.free v with free := h.free + 1 }

/-- Assign the pointers of an object. -/
def setPt (h : Heap R) (p : Nat) (f : Nat × Nat) : Heap R := { h with pts := h.pts.set p f }

/-- The loop of `Pick` (64-80); `.err` if it has not returned within the fuel. -/
def pickLoop (f : Nat × Nat) : Nat → Heap R → Outcome (Heap R)
  | 0, _ => .err
  | n + 1, h =>
    match fieldPick R (n + 1) h.rnd with
    | none => .err
    | some (s1, v) =>
      let h1 := setAt { h with rnd := s1 } f.1 v
      match maybeSqrt (rightHandSide (h1.elt f.1)) with
      | none => pickLoop f n h1
      | some y =>
        let h2 := setAt h1 f.2 y
        let x := R.xor s1 [0]
        let h3 := { h2 with rnd := x.1 }
        if (x.2.getD 0 0) &&& 1 = 0 then .ok (negAt h3 f.2 f.2) else .ok h3

/-- One call: the heap after it, and whether it returned without an error (`Equal`: what it returned). `.err`: there is no such object, or `Pick` has not returned. -/
def exec (h : Heap R) : Call → Outcome (Heap R × Bool)
  | .newPoint =>                                                            -- 34-36
    let h1 := alloc (alloc h 0) 0
    .ok ({ h1 with pts := h1.pts ++ [(h.free, h.free + 1)] }, true)
  | .null p =>                                                              -- 50-54
    match h.pts[p]? with
    | none => .err
    | some f =>
      let h1 := setPt (alloc h (fromInt 0)) p (h.free, f.2)
      .ok (setPt (alloc h1 (fromInt 0)) p (h.free, h1.free), true)
  | .base p =>                                                              -- 57-61
    match h.pts[p]? with
    | none => .err
    | some f => .ok (setAt (setAt h f.1 Btcec.gx) f.2 Btcec.gy, true)
  | .pick p fuel =>                                                         -- 64-80
    match h.pts[p]? with
    | none => .err
    | some f => pickLoop f fuel h >>= fun h' => .ok (h', true)
  | .set p a =>                                                             -- 83-87
    match h.pts[p]?, h.pts[a]? with
    | some f, some g =>
      let h1 := setAt h f.1 (h.elt g.1)
      .ok (setAt h1 f.2 (h1.elt g.2), true)
    | _, _ => .err
  | .clone a =>                                                             -- 90-92, field.go:111
    match h.pts[a]? with
    | none => .err
    | some g =>
      let h1 := modQAt h g.1
      let h2 := setAt (alloc h1 0) h1.free (h1.elt g.1)
      let h3 := modQAt h2 g.2
      let h4 := setAt (alloc h3 0) h3.free (h3.elt g.2)
      .ok ({ h4 with pts := h4.pts ++ [(h1.free, h3.free)] }, true)
  | .embed p data =>                                                        -- 104-136
    match h.pts[p]? with
    | none => .err
    | some f =>
      match Point.embed R data h.rnd with
      | (s, .ok P) =>
        let h1 := setPt (alloc { h with rnd := s } P.X) p (h.free, f.2)
        .ok (setPt (alloc h1 P.Y) p (h.free, h1.free), true)
      | (_, .err) => .err
      | (_, .panic) => .panic
  | .add p a b =>                                                           -- 149-156
    match h.pts[p]?, h.pts[a]?, h.pts[b]? with
    | some f, some g, some k =>
      let r := Btcec.add (h.elt g.1, h.elt g.2) (h.elt k.1, h.elt k.2)
      .ok (setAt (setAt h f.1 r.1) f.2 r.2, true)
    | _, _, _ => .err
  | .sub p a b =>                                                           -- 159-167
    match h.pts[p]?, h.pts[a]?, h.pts[b]? with
    | some f, some g, some k =>
      let h1 := negAt (alloc h 0) h.free k.2
      let r := Btcec.add (h1.elt g.1, h1.elt g.2) (h1.elt k.1, h1.elt h.free)
      .ok (setAt (setAt h1 f.1 r.1) f.2 r.2, true)
    | _, _, _ => .err
  | .neg p a =>                                                             -- 170-174
    match h.pts[p]?, h.pts[a]? with
    | some f, some g =>
      let h1 := modQAt h g.1
      let h2 := setPt (setAt (alloc h1 0) h1.free (h1.elt g.1)) p (h1.free, f.2)
      match h2.pts[a]? with
      | none => .err
      | some g' => .ok (setPt (negAt (alloc h2 0) h2.free g'.2) p (h1.free, h2.free), true)
    | _, _ => .err
  | .mul p s a =>                                                           -- 178-194
    match h.pts[p]?, h.pts[a]? with
    | some f, some g =>
      (Scalar.marshalBinary s).orPanic >>= fun bs =>
        let r := Btcec.scalarMult (h.elt g.1, h.elt g.2) bs
        .ok (setAt (setAt h f.1 r.1) f.2 r.2, true)
    | _, _ => .err
  | .mulBase p s =>                                                         -- 178-194
    match h.pts[p]? with
    | none => .err
    | some f =>
      (Scalar.marshalBinary s).orPanic >>= fun bs =>
        let r := Btcec.scalarBaseMult bs
        .ok (setAt (setAt h f.1 r.1) f.2 r.2, true)
  | .equal a b =>                                                           -- 44-47
    match h.pts[a]?, h.pts[b]? with
    | some f, some g => .ok (h, Field.equal (h.elt f.1) (h.elt g.1) && Field.equal (h.elt f.2) (h.elt g.2))
    | _, _ => .err
  | .marshal a =>                                                           -- 199-222
    match h.pts[a]? with
    | none => .err
    | some g =>
      match maybeSqrt (rightHandSide (h.elt g.1)) with
      | none => .ok (h, false)
      | some r =>
        if !Field.equal (h.elt g.2) r && !Field.equal (h.elt g.2) (Field.neg r) then .ok (h, false) else .ok (modQAt h g.1, true)
  | .longMarshal a =>                                                       -- 341-345
    match h.pts[a]? with
    | none => .err
    | some g => .ok (modQAt (modQAt h g.1) g.2, true)
  | .unmarshal p buf =>                                                     -- 234-263
    match h.pts[p]? with
    | none => .err
    | some f =>
      if buf.length ≠ 33 then .ok (h, false)
      else if ¬ (buf.getD 32 0 = 0 ∨ buf.getD 32 0 = 1) then .ok (h, false)
      else
        let h1 := setPt (alloc h (Field.setBytes (buf.take 32))) p (h.free, f.2)
        match maybeSqrt (rightHandSide (h1.elt h.free)) with
        | none => .ok (h1, false)
        | some y =>
          let h2 := setAt h1 f.2 y
          if (buf.getD 32 0 = 0 ∧ !isEven y) ∨ (buf.getD 32 0 = 1 ∧ isEven y) then .ok (negAt h2 f.2 f.2, true) else .ok (h2, true)

/-- A sequence of calls, with the results. A caller may go on after an error. -/
def run : Heap R → List Call → Outcome (Heap R × List Bool)
  | h, [] => .ok (h, [])
  | h, c :: cs => exec h c >>= fun x => run x.1 cs >>= fun y => .ok (y.1, x.2 :: y.2)

end Verif.PointHeap
