/-!
Specification of big-endian byte strings, independent of the code model.
-/
namespace Verif

/-- The natural number denoted by a byte string, most significant byte first. -/
def beNat (bs : List UInt8) : Nat := bs.foldl (fun acc b => acc * 256 + b.toNat) 0

end Verif
