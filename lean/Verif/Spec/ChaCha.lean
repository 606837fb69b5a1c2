import Verif.Basic.Bytes

/-! # RFC 7539 ChaCha (specification, written from the RFC) -/

namespace CT.Spec.ChaCha

/-- RFC 7539 section 2.1: the quarter round on four words. -/
def quarterRound (a b c d : U32) : U32 × U32 × U32 × U32 :=
  let a := a + b; let d := (d ^^^ a).rotateLeft 16
  let c := c + d; let b := (b ^^^ c).rotateLeft 12
  let a := a + b; let d := (d ^^^ a).rotateLeft 8
  let c := c + d; let b := (b ^^^ c).rotateLeft 7
  (a, b, c, d)

/-- Section 2.2: the quarter round on the words with the given indexes of the state. -/
def qr (s : Vector U32 16) (x y z w : Fin 16) : Vector U32 16 :=
  let r := quarterRound s[x] s[y] s[z] s[w]
  Vector.ofFn fun i =>
    if i = x then r.1 else if i = y then r.2.1 else if i = z then r.2.2.1
    else if i = w then r.2.2.2 else s[i]

/-- Section 2.3: four column rounds and four diagonal rounds. -/
def doubleRound (s : Vector U32 16) : Vector U32 16 :=
  let s := qr s 0 4 8 12
  let s := qr s 1 5 9 13
  let s := qr s 2 6 10 14
  let s := qr s 3 7 11 15
  let s := qr s 0 5 10 15
  let s := qr s 1 6 11 12
  let s := qr s 2 7 8 13
  qr s 3 4 9 14

/-- Section 2.3: constants, key, block counter, nonce. -/
def initState (key : List U8) (counter : U32) (nonce : List U8) : Vector U32 16 :=
  Vector.ofFn fun i =>
    if i.val < 4 then [0x61707865#32, 0x3320646e#32, 0x79622d32#32, 0x6b206574#32].getD i.val 0
    else if i.val < 12 then (bytesToWordsLE key).getD (i.val - 4) 0
    else if i.val = 12 then counter
    else (bytesToWordsLE nonce).getD (i.val - 13) 0

/-- Section 2.3: the 64-byte keystream block; `rounds` is 20 in the RFC. -/
def block (rounds : Nat) (key : List U8) (counter : U32) (nonce : List U8) : List U8 :=
  let s0 := initState key counter nonce
  let s := Nat.repeat doubleRound (rounds / 2) s0
  wordsToBytesLE (List.ofFn fun i : Fin 16 => s[i] + s0[i])

/-- Section 2.4: concatenation of the keystream blocks for counters `counter, counter+1, ...`. -/
def keystream (rounds : Nat) (key : List U8) (counter : U32) (nonce : List U8) : Nat → List U8
  | 0 => []
  | n + 1 => block rounds key counter nonce ++ keystream rounds key (counter + 1) nonce n

/-- Section 2.4: encryption. -/
def encrypt (rounds : Nat) (key : List U8) (counter : U32) (nonce : List U8) (msg : List U8) : List U8 :=
  xorBytes msg (keystream rounds key counter nonce ((msg.length + 63) / 64))

end CT.Spec.ChaCha
