import Verif.Basic.Bytes

/-! # Byte order reversal (specification) -/

namespace CT.Spec.ByteSwap

/-- The bytes of every complete group of four in reverse order; what is left over stays. -/
def swapWords : List U8 → List U8
  | a :: b :: c :: d :: bs => d :: c :: b :: a :: swapWords bs
  | bs => bs

end CT.Spec.ByteSwap
