import Verif.Basic.Bytes

/-!
# Model of Authentication/Poly1305

`poly1305_mac` (poly1305.cpp:5-15) computes nothing and does not compile (its signature differs from
the declaration, and `le_bytes_to_num` applies `*` to a `u8`), so only `clamp` is modelled.
-/

namespace CT.Poly1305

/-- `r[i] &= m` (poly1305.h:69-75). -/
def maskAt (r : Vector U8 16) (i : Fin 16) (m : U8) : Vector U8 16 := r.set i (r.get i &&& m)

/-- `clamp` (poly1305.h:67-76). -/
def clamp (r : Vector U8 16) : Vector U8 16 :=
  let r := maskAt r 3 15
  let r := maskAt r 7 15
  let r := maskAt r 11 15
  let r := maskAt r 15 15
  let r := maskAt r 4 252
  let r := maskAt r 8 252
  maskAt r 12 252

end CT.Poly1305
