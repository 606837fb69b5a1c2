import Verif.Model.Programs

/-!
# Rabbit's key loading in a build with `DEBUG`, and the program that shows it

`rabbit_load_key` (StreamCiphers/Rabbit/rabbit.cpp:23-99) prints on the way when `DEBUG` is defined;
StreamCiphers/Rabbit/test_rf.cpp does nothing else.  A printed line that mixes fixed text and hexadecimal text is a
list of pairs of both, in order; line breaks are left out.
-/

namespace CT.Programs

/-- What one iteration of the first loop of `rabbit_load_key` prints (rabbit.cpp:32-67, `DEBUG`).  The word is the
one that the iteration stores in `X[j]`. -/
def rabbitDebugLoop (junk : Nat → Nat → U8) (key : List U8) (X : List U32) : Nat → Nat → Res Printout
  | 0, _ => .ok []
  | n + 1, j =>
    if j % 2 ≠ 0 then do
      let rest ← rabbitDebugLoop junk key X n (j + 1)
      return (s!"j = {j} | j + 5 mod 8 = {(j + 5) % 8}", []) :: rest
    else do
      let firstC ← Hex.encode (arr junk j 5) ((key.drop (2 * ((j + 1) % 8))).take 2) 2
      let secondC ← Hex.encode (arr junk (j + 8) 5) ((key.drop (2 * j)).take 2) 2
      let firstS ← cString firstC
      let secondS ← cString secondC
      let printC ← Hex.encode (arr junk (j + 16) 9) (bytesLE32 (X.getD j 0)) 4
      let printS ← cString printC
      let rest ← rabbitDebugLoop junk key X n (j + 1)
      return (s!"j = {j}", []) :: ("First: ", firstS) :: (" | Second: ", secondS) :: (s!"X[{j}] = ", printS) :: rest

/-- `print_inner_state` (rabbit.cpp:215-256) as lines. -/
def rabbitStateLines (junk : Nat → Nat → U8) (cs : Rabbit.State) : Res Printout := do
  let (b, l) ← rabbitPrintState junk cs
  return (s!"b = {b}", []) :: l

/-- The loop of four rounds with `DEBUG` (rabbit.cpp:74-82). -/
def rabbitDebugRounds (junk : Nat → Nat → U8) : Nat → Nat → Rabbit.State → Res (Rabbit.State × Printout)
  | 0, _, cs => .ok (cs, [])
  | n + 1, i, cs => do
    let cs := Rabbit.update cs
    let l ← rabbitStateLines junk cs
    let (cs, rest) ← rabbitDebugRounds junk n (i + 1) cs
    return (cs, (s!"***** ROUND {i + 1} *****", []) :: (l ++ rest))

/-- `rabbit_load_key` with `DEBUG` (rabbit.cpp:23-99): the new state and the lines. -/
def rabbitLoadKeyDebug (junk : Nat → Nat → U8) (key : List U8) : Res (Rabbit.State × Printout) := do
  let cs := Rabbit.loadKeyExpand key
  let l1 ← rabbitDebugLoop junk key cs.X.toList 8 0
  let l2 ← rabbitStateLines junk cs
  let (cs, l3) ← rabbitDebugRounds junk 4 0 cs
  let C := Vector.ofFn fun j : Fin 8 => cs.C[j] ^^^ cs.X[(j.val + 4) % 8]'(by omega)
  let cs := { cs with C := C, MC := C, MX := cs.X }
  let l4 ← rabbitStateLines junk cs
  return (cs, l1 ++ l2 ++ l3 ++ ("After final XOR", []) :: l4)

/-- `main` of StreamCiphers/Rabbit/test_rf.cpp:7-33 (the rest is commented out). -/
def rabbitTestRf (junk : Nat → Nat → U8) (keyString ivString : List U8) : Res Printout := do
  let key ← Hex.decode (arr junk 0 (keyString.length / 2)) keyString (asInt keyString.length)
  let l1 ← rabbitPrintKey junk key 8 0
  let _ ← Hex.decode (arr junk 1 (ivString.length / 2)) ivString (asInt ivString.length)
  let (_, l2) ← rabbitLoadKeyDebug junk key
  return l1 ++ (" Hello ", []) :: l2

/-- The texts of test_rf.cpp:13, 15. -/
def rfKey : List U8 := ascii "ACC351DCF162FC3BFE363D2E29132891"
def rfIv : List U8 := ascii "0000000000000000"

end CT.Programs
