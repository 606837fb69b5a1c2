import Verif.Basic.Mem
import Verif.Basic.Rot

/-!
# Model of Legacy/MD5/md5.cpp and md5.h

`u32` arithmetic wraps.  Lengths and indices of type `u32` are natural numbers below 2^32 with
explicit `% 2^32` where the code can wrap.
-/

namespace CT.MD5

/-- `MD5_CTX` (md5.h:90-94). -/
structure Ctx where
  s0 : U32
  s1 : U32
  s2 : U32
  s3 : U32
  count0 : U32
  count1 : U32
  buffer : List U8
  deriving DecidableEq

/-- md5.cpp:62 -/
def F (x y z : U32) : U32 := (x &&& y) ||| (~~~x &&& z)
/-- md5.cpp:63 -/
def G (x y z : U32) : U32 := (x &&& z) ||| (y &&& ~~~z)
/-- md5.cpp:64 -/
def H (x y z : U32) : U32 := x ^^^ y ^^^ z
/-- md5.cpp:65 -/
def I (x y z : U32) : U32 := y ^^^ (x ||| ~~~z)

/-- The four macros `FF`, `GG`, `HH`, `II` (md5.cpp:74-95). -/
inductive Mac | FF | GG | HH | II
  deriving DecidableEq

/-- The register a macro call assigns; the calls are `(a,b,c,d)`, `(d,a,b,c)`, `(c,d,a,b)`, `(b,c,d,a)`
(md5.cpp:188-257). -/
inductive Reg | a | b | c | d
  deriving DecidableEq

/-- One line of `MD5Transform`: macro, first argument, index into `x`, shift (`Sij`, md5.cpp:31-46), constant. -/
structure Line where
  mac : Mac
  reg : Reg
  k : Nat
  s : Nat
  ac : U32
  deriving DecidableEq

/-- The registers of `MD5Transform` (md5.cpp:183). -/
structure Regs where
  a : U32
  b : U32
  c : U32
  d : U32
  deriving DecidableEq

/-- `F`, `G`, `H` or `I` (md5.cpp:62-65). -/
def Mac.fn : Mac → U32 → U32 → U32 → U32
  | .FF => F
  | .GG => G
  | .HH => H
  | .II => I

/-- Effect of the macro on its first argument (md5.cpp:74-78): add, `ROTATE_LEFT`, add. -/
def macVal (m : Mac) (a b c d x : U32) (s : Nat) (ac : U32) : U32 :=
  rotl32 (a + (m.fn b c d + x + ac)) s + b

/-- Execute one line of md5.cpp:188-257. -/
def Line.exec (x : Nat → U32) (r : Regs) (l : Line) : Regs :=
  match l.reg with
  | .a => { r with a := macVal l.mac r.a r.b r.c r.d (x l.k) l.s l.ac }
  | .d => { r with d := macVal l.mac r.d r.a r.b r.c (x l.k) l.s l.ac }
  | .c => { r with c := macVal l.mac r.c r.d r.a r.b (x l.k) l.s l.ac }
  | .b => { r with b := macVal l.mac r.b r.c r.d r.a (x l.k) l.s l.ac }

/-- The 64 lines of `MD5Transform` (md5.cpp:188-257), one entry per line. -/
def lines : List Line := [
  ⟨.FF, .a, 0, 7, 0xd76aa478⟩,  ⟨.FF, .d, 1, 12, 0xe8c7b756⟩,  ⟨.FF, .c, 2, 17, 0x242070db⟩,  ⟨.FF, .b, 3, 22, 0xc1bdceee⟩,
  ⟨.FF, .a, 4, 7, 0xf57c0faf⟩,  ⟨.FF, .d, 5, 12, 0x4787c62a⟩,  ⟨.FF, .c, 6, 17, 0xa8304613⟩,  ⟨.FF, .b, 7, 22, 0xfd469501⟩,
  ⟨.FF, .a, 8, 7, 0x698098d8⟩,  ⟨.FF, .d, 9, 12, 0x8b44f7af⟩,  ⟨.FF, .c, 10, 17, 0xffff5bb1⟩,  ⟨.FF, .b, 11, 22, 0x895cd7be⟩,
  ⟨.FF, .a, 12, 7, 0x6b901122⟩,  ⟨.FF, .d, 13, 12, 0xfd987193⟩,  ⟨.FF, .c, 14, 17, 0xa679438e⟩,  ⟨.FF, .b, 15, 22, 0x49b40821⟩,
  ⟨.GG, .a, 1, 5, 0xf61e2562⟩,  ⟨.GG, .d, 6, 9, 0xc040b340⟩,  ⟨.GG, .c, 11, 14, 0x265e5a51⟩,  ⟨.GG, .b, 0, 20, 0xe9b6c7aa⟩,
  ⟨.GG, .a, 5, 5, 0xd62f105d⟩,  ⟨.GG, .d, 10, 9, 0x2441453⟩,  ⟨.GG, .c, 15, 14, 0xd8a1e681⟩,  ⟨.GG, .b, 4, 20, 0xe7d3fbc8⟩,
  ⟨.GG, .a, 9, 5, 0x21e1cde6⟩,  ⟨.GG, .d, 14, 9, 0xc33707d6⟩,  ⟨.GG, .c, 3, 14, 0xf4d50d87⟩,  ⟨.GG, .b, 8, 20, 0x455a14ed⟩,
  ⟨.GG, .a, 13, 5, 0xa9e3e905⟩,  ⟨.GG, .d, 2, 9, 0xfcefa3f8⟩,  ⟨.GG, .c, 7, 14, 0x676f02d9⟩,  ⟨.GG, .b, 12, 20, 0x8d2a4c8a⟩,
  ⟨.HH, .a, 5, 4, 0xfffa3942⟩,  ⟨.HH, .d, 8, 11, 0x8771f681⟩,  ⟨.HH, .c, 11, 16, 0x6d9d6122⟩,  ⟨.HH, .b, 14, 23, 0xfde5380c⟩,
  ⟨.HH, .a, 1, 4, 0xa4beea44⟩,  ⟨.HH, .d, 4, 11, 0x4bdecfa9⟩,  ⟨.HH, .c, 7, 16, 0xf6bb4b60⟩,  ⟨.HH, .b, 10, 23, 0xbebfbc70⟩,
  ⟨.HH, .a, 13, 4, 0x289b7ec6⟩,  ⟨.HH, .d, 0, 11, 0xeaa127fa⟩,  ⟨.HH, .c, 3, 16, 0xd4ef3085⟩,  ⟨.HH, .b, 6, 23, 0x4881d05⟩,
  ⟨.HH, .a, 9, 4, 0xd9d4d039⟩,  ⟨.HH, .d, 12, 11, 0xe6db99e5⟩,  ⟨.HH, .c, 15, 16, 0x1fa27cf8⟩,  ⟨.HH, .b, 2, 23, 0xc4ac5665⟩,
  ⟨.II, .a, 0, 6, 0xf4292244⟩,  ⟨.II, .d, 7, 10, 0x432aff97⟩,  ⟨.II, .c, 14, 15, 0xab9423a7⟩,  ⟨.II, .b, 5, 21, 0xfc93a039⟩,
  ⟨.II, .a, 12, 6, 0x655b59c3⟩,  ⟨.II, .d, 3, 10, 0x8f0ccc92⟩,  ⟨.II, .c, 10, 15, 0xffeff47d⟩,  ⟨.II, .b, 1, 21, 0x85845dd1⟩,
  ⟨.II, .a, 8, 6, 0x6fa87e4f⟩,  ⟨.II, .d, 15, 10, 0xfe2ce6e0⟩,  ⟨.II, .c, 6, 15, 0xa3014314⟩,  ⟨.II, .b, 13, 21, 0x4e0811a1⟩,
  ⟨.II, .a, 4, 6, 0xf7537e82⟩,  ⟨.II, .d, 11, 10, 0xbd3af235⟩,  ⟨.II, .c, 2, 15, 0x2ad7d2bb⟩,  ⟨.II, .b, 9, 21, 0xeb86d391⟩]

/-- `Decode(x, block, 64)` (md5.cpp:288-297): word `k`. -/
def decode (block : List U8) (k : Nat) : U32 :=
  let b := fun j => (block.getD (4 * k + j) 0).setWidth 32
  b 0 ||| (b 1 <<< 8) ||| (b 2 <<< 16) ||| (b 3 <<< 24)

/-- `MD5Transform` (md5.cpp:181-267); `block` has 64 bytes. -/
def transform (r : Regs) (block : List U8) : Regs :=
  let s := lines.foldl (Line.exec (decode block)) r
  { a := r.a + s.a, b := r.b + s.b, c := r.c + s.c, d := r.d + s.d }

/-- `Encode` (md5.cpp:272-283) of one word. -/
def encodeWord (w : U32) : List U8 :=
  [(w &&& 0xff).setWidth 8, ((w >>> 8) &&& 0xff).setWidth 8, ((w >>> 16) &&& 0xff).setWidth 8,
   ((w >>> 24) &&& 0xff).setWidth 8]

/-- `MD5Init` (md5.cpp:99-108); the buffer keeps what it contained. -/
def init (c : Ctx) : Ctx :=
  { s0 := 0x67452301, s1 := 0xefcdab89, s2 := 0x98badcfe, s3 := 0x10325476, count0 := 0, count1 := 0,
    buffer := c.buffer }

/-- Reading `n` bytes from index `i` on (md5.cpp:131-142). -/
def slice (input : List U8) (i n : Nat) : Res (List U8) :=
  if i + n ≤ input.length then .ok ((input.drop i).take n) else .ub .outOfBounds

/-- The loop md5.cpp:134-135: `for (; i + 63 < inputLen; i += 64) MD5Transform(state, &input[i])`. -/
def updateLoop (input : List U8) (len : Nat) : Nat → Nat → Regs → Res (Nat × Regs)
  | 0, _, _ => .ub .diverges
  | fuel + 1, i, r =>
    if (i + 63) % 2 ^ 32 < len then do
      let block ← slice input i 64
      updateLoop input len fuel ((i + 64) % 2 ^ 32) (transform r block)
    else .ok (i, r)

/-- More iterations than the loop md5.cpp:134-135 can make before `i` repeats. -/
def loopFuel : Nat := 2 ^ 26 + 1

/-- The registers from the context (md5.cpp:183). -/
def Ctx.regs (c : Ctx) : Regs := { a := c.s0, b := c.s1, c := c.s2, d := c.s3 }
/-- The registers into the context (md5.cpp:259-262). -/
def Ctx.withRegs (c : Ctx) (r : Regs) : Ctx := { c with s0 := r.a, s1 := r.b, s2 := r.c, s3 := r.d }

/-- `MD5Update` (md5.cpp:114-143).  `MD5_memcpy` (302-308) is a byte-wise copy. -/
def update (c : Ctx) (input : List U8) (len : U32) : Res Ctx := do
  let index := ((c.count0 >>> 3) &&& 0x3f).toNat
  let count0 := c.count0 + (len <<< 3)
  let count1 := if count0 < (len <<< 3) then c.count1 + 1 else c.count1
  let count1 := count1 + (len >>> 29)
  let partLen := 64 - index
  let c := { c with count0 := count0, count1 := count1 }
  if len.toNat ≥ partLen then
    let first ← slice input 0 partLen
    let buffer ← Mem.wrs c.buffer index first
    let r := transform c.regs (buffer.take 64)
    let (i, r) ← updateLoop input len.toNat loopFuel partLen r
    let rest ← slice input i ((len.toNat + 2 ^ 32 - i) % 2 ^ 32)
    let buffer ← Mem.wrs buffer 0 rest
    .ok ({ c with buffer := buffer }.withRegs r)
  else
    let rest ← slice input 0 len.toNat
    let buffer ← Mem.wrs c.buffer index rest
    .ok { c with buffer := buffer }

/-- `PADDING` (md5.cpp:54-58). -/
def PADDING : List U8 := 0x80 :: List.replicate 63 0

/-- `MD5Final` (md5.cpp:148-170): the digest array and the zeroised context. -/
def final (digest : List U8) (c : Ctx) : Res (List U8 × Ctx) := do
  let bits := encodeWord c.count0 ++ encodeWord c.count1
  let index := (c.count0 >>> 3) &&& 0x3f
  let padLen := if index < 56 then 56 - index else 120 - index
  let c ← update c PADDING padLen
  let c ← update c bits 8
  let digest ← Mem.wrs digest 0 (encodeWord c.s0 ++ encodeWord c.s1 ++ encodeWord c.s2 ++ encodeWord c.s3)
  .ok (digest, { s0 := 0, s1 := 0, s2 := 0, s3 := 0, count0 := 0, count1 := 0, buffer := List.replicate 64 0 })

/-- `MD5_process_packet` (md5.cpp:172-177). -/
def processPacket (c : Ctx) (digest input : List U8) (size : U32) : Res (List U8 × Ctx) := do
  let c ← update (init c) input size
  final digest c

end CT.MD5
