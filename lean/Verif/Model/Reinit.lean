import Verif.Model.ChaCha
import Verif.Model.HC128
import Verif.Model.Rabbit
import Verif.Model.Serpent
import Verif.Model.AES
import Verif.Model.DES

/-!
# Initialisation of objects that were used before

The initialisation functions of the library write into an object that the caller provides: one fresh from the stack, with
whatever was there, or one left over from another session.  The other models give the result only.  Here the functions are
once more, as assignments to the elements of the old object; local arrays, too, begin with arbitrary contents (`junk`).
-/

namespace CT

/-- `for (...; n more; i++) a[i] = f(i, a);` (hc128.cpp:28-31, aes_ctr.cpp:48-57) -/
def fillFrom (f : Nat → List U32 → U32) : Nat → Nat → List U32 → List U32
  | 0, _, a => a
  | n + 1, i, a => fillFrom f n (i + 1) (a.set i (f i a))

/-- `memcpy` of whole elements to `a + i` (chacha.cpp:38, 43, serpent.cpp:124-140). -/
def copyTo {α : Type} : Nat → List α → List α → List α
  | _, [], a => a
  | i, x :: xs, a => copyTo (i + 1) xs (a.set i x)

/-- `chacha_initialize` (chacha.cpp:29-44) on the object `cs`. -/
def ChaCha.initFrom (cs : State) (key nonce : List U8) : State :=
  let s := cs.state
  let s := s.set 0 0x61707865#32
  let s := s.set 1 0x3320646e#32
  let s := s.set 2 0x79622d32#32
  let s := s.set 3 0x6b206574#32
  let s := loadWords s 4 (bytesToWordsLE key)
  let s := s.set 12 1#32
  ⟨loadWords s 13 (bytesToWordsLE nonce)⟩

/-- Stage 2 of `hc128_initialize` (hc128.cpp:35-39): `n` iterations from `i` on. -/
def HC128.extractFrom (W : List U32) : Nat → Nat → State → State
  | 0, _, cs => cs
  | n + 1, i, cs =>
    extractFrom W n (i + 1)
      { P := cs.P.setIfInBounds i (W.getD (i + 256) 0), Q := cs.Q.setIfInBounds i (W.getD (i + 768) 0) }

/-- The array `W` (hc128.cpp:18-31), which is uninitialised at first. -/
def HC128.wFrom (junk : List U32) (key iv : List U8) : List U32 :=
  let W := copyTo 0 (bytesToWordsLE key) junk
  let W := copyTo 4 (bytesToWordsLE key) W
  let W := copyTo 8 (bytesToWordsLE iv) W
  let W := copyTo 12 (bytesToWordsLE iv) W
  fillFrom (fun i W => f2 (W.getD (i - 2) 0) + W.getD (i - 7) 0 + f1 (W.getD (i - 15) 0) + W.getD (i - 16) 0 + BitVec.ofNat 32 i)
    1264 16 W

/-- `hc128_initialize` (hc128.cpp:14-62) on the object `cs`. -/
def HC128.initFrom (cs : State) (junk : List U32) (key iv : List U8) : State :=
  mixQ 512 0 (mixP 512 0 (extractFrom (wFrom junk key iv) 512 0 cs))

/-- One iteration of the first loop of `rabbit_load_key` (rabbit.cpp:31-67). -/
def Rabbit.expandStep (key : List U8) (cs : State) (j : Fin 8) : State :=
  if j.val % 2 ≠ 0 then
    { cs with
      X := cs.X.set j (u16 key ((j + 5) % 8) <<< 16 ||| u16 key ((j + 4) % 8))
      C := cs.C.set j (u16 key j <<< 16 ||| u16 key ((j + 1) % 8)) }
  else
    { cs with
      X := cs.X.set j (u16 key ((j + 1) % 8) <<< 16 ||| u16 key j)
      C := cs.C.set j (u16 key ((j + 4) % 8) <<< 16 ||| u16 key ((j + 5) % 8)) }

/-- One iteration of the loop rabbit.cpp:85-88. -/
def Rabbit.finishStep (cs : State) (j : Fin 8) : State :=
  { cs with C := cs.C.set j (cs.C[j] ^^^ cs.X[(j.val + 4) % 8]'(by omega)) }

/-- One iteration of the loop rabbit.cpp:90-94. -/
def Rabbit.saveStep (cs : State) (j : Fin 8) : State :=
  { cs with MC := cs.MC.set j cs.C[j], MX := cs.MX.set j cs.X[j] }

/-- `rabbit_load_key` (rabbit.cpp:23-99) on the object `cs`. -/
def Rabbit.loadKeyFrom (cs : State) (key : List U8) : State :=
  let js : List (Fin 8) := [0, 1, 2, 3, 4, 5, 6, 7]
  let cs := { cs with carry := 0 }
  let cs := js.foldl (expandStep key) cs
  let cs := update4 cs
  let cs := js.foldl finishStep cs
  js.foldl saveStep cs

/-- The local `key` of `serpent_key_schedule` (serpent.cpp:124-140): `memcpy`, the marker, and the zeros. -/
def Serpent.padFrom (junk : List U8) (key : List U8) : List U8 :=
  let k := copyTo 0 key junk
  if key.length < 32 then copyTo (key.length + 1) (List.replicate (31 - key.length) 0) (k.set key.length 0x80) else k

/-- The local `w` (serpent.cpp:142-164). -/
def Serpent.wFrom (junk8 : List U8) (junk : List U32) (key : List U8) : List U32 :=
  match bytesToWordsLE (padFrom junk8 key) with
  | [k0, k1, k2, k3, k4, k5, k6, k7] =>
    fillFrom (fun i w => rotl32 (w.getD (i - 8) 0 ^^^ w.getD (i - 5) 0 ^^^ w.getD (i - 3) 0 ^^^ w.getD (i - 1) 0 ^^^ phi ^^^ BitVec.ofNat 32 i) 11)
      92 8 (copyTo 0 (firstWords k0 k1 k2 k3 k4 k5 k6 k7) junk)
  | _ => []

/-- The assignments to `ctx->RK` (serpent.cpp:190-420): `n` blocks from block `b` on. -/
def Serpent.rkFrom (w : List U32) : Nat → Nat → List U32 → List U32
  | 0, _, rk => rk
  | n + 1, b, rk =>
    rkFrom w n (b + 1) (copyTo (4 * b)
      (keyBlock b (w.getD (4 * b) 0) (w.getD (4 * b + 1) 0) (w.getD (4 * b + 2) 0) (w.getD (4 * b + 3) 0)) rk)

/-- `serpent_key_schedule` (serpent.cpp:118-424) on the object `rk`. -/
def Serpent.keyScheduleFrom (rk : List U32) (junk8 : List U8) (junk : List U32) (key : List U8) (size : Int) :
    Res (Option (List U32)) :=
  if 32 < size then .ok none
  else if size < 0 ∨ key.length < size.toNat then .ub .outOfBounds
  else .ok (some (rkFrom (wFrom junk8 junk (key.take size.toNat)) 25 0 rk))

/-- `aes_key_expansion` (aes_ctr.cpp:35-58 and the copies) into the array `rk`. -/
def AES.keyExpansionFrom (rk : List U32) (key : List U8) : List U32 :=
  fillFrom (fun i ks =>
      let temp := ks.getD (i - 1) 0
      let temp := if i % 4 = 0 then subByte (rotByte temp) ^^^ (rconTab.getD (i / 4) 0).setWidth 32 else temp
      ks.getD (i - 4) 0 ^^^ temp)
    40 4 (fillFrom (fun i _ => keyWord key i) 4 0 rk)

/-- `aes_load_key` (aes_ctr.cpp:72-75) on the object `cs`. -/
def AES.loadKeyFrom (cs : State) (key : List U8) : State := { cs with rk := keyExpansionFrom cs.rk key }

/-- `aes_cfb_initialize` (aes_cfb.cpp:52-64) on the object `cs`. -/
def AES.cfbInitFrom (cs : State) (key iv : List U8) : State :=
  let cs := { cs with rk := keyExpansionFrom cs.rk key }
  let q := quadOf iv
  let cs := { cs with reg := { cs.reg with w0 := q.w0 } }
  let cs := { cs with reg := { cs.reg with w1 := q.w1 } }
  let cs := { cs with reg := { cs.reg with w2 := q.w2 } }
  { cs with reg := { cs.reg with w3 := q.w3 } }

/-- The loop of `des_key_schedule_encrypt` (des.cpp:35-71); `p` is the index of `rk_ptr`. -/
def DES.ksFrom : Nat → Nat → U32 → U32 → Nat → List U32 → List U32
  | 0, _, _, _, _, rk => rk
  | n + 1, i, X, Y, p, rk =>
    let X := rotKey i X
    let Y := rotKey i Y
    ksFrom n (i + 1) X Y (p + 2) ((rk.set p (rkWord0 X Y)).set (p + 1) (rkWord1 X Y))

/-- `des_key_schedule_encrypt` (des.cpp:4-72) on the object `rk`. -/
def DES.keyScheduleEncryptFrom (rk : List U32) (key : List U8) : Res (List U32) :=
  match key with
  | k0 :: k1 :: k2 :: k3 :: k4 :: k5 :: k6 :: k7 :: _ =>
    let p := pc1 (le32 k0 k1 k2 k3) (le32 k4 k5 k6 k7)
    .ok (ksFrom 16 0 p.1 p.2 0 rk)
  | _ => .ub .outOfBounds

/-- `des_key_schedule_decrypt` (des.cpp:74-85) on the object `rk`. -/
def DES.keyScheduleDecryptFrom (rk : List U32) (key : List U8) : Res (List U32) := do
  let rk ← keyScheduleEncryptFrom rk key
  .ok ([0, 2, 4, 6, 8, 10, 12, 14].foldl (fun rk i => swapAt (swapAt rk i (30 - i)) (i + 1) (31 - i)) rk)

end CT
