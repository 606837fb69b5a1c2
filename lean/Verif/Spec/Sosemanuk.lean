import Verif.Spec.Serpent

/-!
# Sosemanuk

Berbain et al., "SOSEMANUK, a fast software-oriented stream cipher", section 3.  The update of the finite
state machine is a parameter, so that one can also speak of the cipher with another one.
-/

namespace CT.Spec.Sosemanuk

/-! ### The field with `2^32` elements -/

/-- Multiplication by `beta`, a root of `x^8 + x^7 + x^5 + x^3 + 1`, in the field with `2^8` elements. -/
def xtime (a : Nat) : Nat := if 2 * a < 256 then 2 * a else (2 * a) ^^^ 0x1a9

/-- `beta^n * a`. -/
def betaTimes (n a : Nat) : Nat := Nat.rec a (fun _ x => xtime x) n

/-- Multiplication in the field with `2^8` elements. -/
def mul (a b : Nat) : Nat := (List.range 8).foldl (fun x i => if b.testBit i then x ^^^ betaTimes i a else x) 0

/-- The element `c_3 alpha^3 + c_2 alpha^2 + c_1 alpha + c_0` with `c_i = beta^{e_i} * b`, where the exponents
are given from `e_3` down to `e_0`. -/
def scaled (e3 e2 e1 e0 : Nat) (b : U8) : U32 :=
  let c := fun e => BitVec.ofNat 8 (mul b.toNat (betaTimes e 1))
  c e3 ++ c e2 ++ c e1 ++ c e0

/-- Multiplication by `alpha`, a root of `x^4 + beta^23 x^3 + beta^245 x^2 + beta^48 x + beta^239`. -/
def mulAlpha (w : U32) : U32 := (w <<< 8) ^^^ scaled 23 245 48 239 (w.extractLsb' 24 8)

/-- Division by `alpha` (`mulAlpha_divAlpha` in the proofs). -/
def divAlpha (w : U32) : U32 := (w >>> 8) ^^^ scaled 16 39 6 64 (w.extractLsb' 0 8)

/-! ### The cipher -/

/-- `s_t, ..., s_{t+9}` (as a function of the distance) and the two registers. -/
structure State where
  s : List U32
  r1 : U32
  r2 : U32

/-- `s_{t+i}`. -/
def State.at (x : State) (i : Nat) : U32 := x.s.getD i 0

/-- `Trans(z) = (0x54655307 * z mod 2^32) <<< 7`. -/
def trans (z : U32) : U32 := (0x54655307 * z).rotateLeft 7

/-- The registers of the next time step. -/
def fsm (x : State) : U32 × U32 :=
  (x.r2 + (if x.r1.getLsbD 0 then x.at 1 ^^^ x.at 8 else x.at 1), trans x.r1)

/-- The LFSR's next value, `s_{t+10} = s_{t+9} + alpha^{-1} s_{t+3} + alpha s_t`. -/
def feedback (x : State) : U32 := x.at 9 ^^^ divAlpha (x.at 3) ^^^ mulAlpha (x.at 0)

/-- One time step: the new state and `f_t` and `s_t`. -/
def step (fsm : State → U32 × U32) (x : State) : State × U32 × U32 :=
  let r := fsm x
  (⟨x.s.drop 1 ++ [feedback x], r.1, r.2⟩, (x.at 9 + r.1) ^^^ r.2, x.at 0)

/-- Four time steps and the output transformation. -/
def block (fsm : State → U32 × U32) (x : State) : State × Quad :=
  let a := step fsm x
  let b := step fsm a.1
  let c := step fsm b.1
  let d := step fsm c.1
  (d.1, Serpent.mix (Serpent.sboxLayer 2 ⟨a.2.1, b.2.1, c.2.1, d.2.1⟩) ⟨a.2.2, b.2.2, c.2.2, d.2.2⟩)

/-- `n` blocks of keystream. -/
def keystream (fsm : State → U32 × U32) : Nat → State → List U8
  | 0, _ => []
  | n + 1, x => let b := block fsm x; wordsToBytesLE [b.2.w0, b.2.w1, b.2.w2, b.2.w3] ++ keystream fsm n b.1

/-- The state after `n` blocks. -/
def stateAfter (fsm : State → U32 × U32) : Nat → State → State
  | 0, x => x
  | n + 1, x => stateAfter fsm n (block fsm x).1

/-- Initial state, from the three outputs of Serpent24 on the IV under a key of 32 bytes. -/
def init (key iv : List U8) : State :=
  let y := Serpent.serpent24 key iv
  ⟨[y.2.2.w3, y.2.2.w2, y.2.2.w1, y.2.2.w0, y.2.1.w1, y.2.1.w3, y.1.w3, y.1.w2, y.1.w1, y.1.w0], y.2.1.w0, y.2.1.w2⟩

/-- The cipher: `n` blocks of keystream for a key of at most 32 bytes and an IV of 16 bytes. -/
def cipher (key iv : List U8) (n : Nat) : List U8 := keystream fsm n (init (Serpent.pad key) iv)

end CT.Spec.Sosemanuk
