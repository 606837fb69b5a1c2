import Verif.Basic.Loops

/-!
# Packet loops that produce sixteen bytes of keystream at a time
-/

namespace CT

/-- A keystream block: the array `uint32_t keystream[4]`. -/
structure Quad where
  w0 : U32
  w1 : U32
  w2 : U32
  w3 : U32
  deriving DecidableEq, Repr

namespace Quad
def toList (q : Quad) : List U32 := [q.w0, q.w1, q.w2, q.w3]
def bytes (q : Quad) : List U8 := wordsToBytesLE q.toList
@[simp] theorem toList_length (q : Quad) : q.toList.length = 4 := rfl
@[simp] theorem bytes_length (q : Quad) : q.bytes.length = 16 := rfl
end Quad

/-- `while (n > 15) { block; four words of *out++ = *in++ ^ keystream[k]; n -= 16; }`
(rabbit.cpp:161-179, sosemanuk.cpp:46-81, aes_ctr.cpp and its variants). -/
def Io.blockLoop {σ : Type} (blk : σ → σ × Quad) : Nat → Nat → Nat → σ → Io → Res (Nat × Nat × σ × Io)
  | 0, _, _, _, _ => .ub .diverges
  | fuel + 1, n, off, s, io =>
    if n > 15 then do
      let r := blk s
      let io ← io.xor32 off r.2.w0
      let io ← io.xor32 (off + 4) r.2.w1
      let io ← io.xor32 (off + 8) r.2.w2
      let io ← io.xor32 (off + 12) r.2.w3
      blockLoop blk fuel (n - 16) (off + 16) r.1 io
    else .ok (n, off, s, io)

/-- The bytes of `m` consecutive blocks. -/
def blkBytes {σ : Type} (blk : σ → σ × Quad) : Nat → σ → List U8
  | 0, _ => []
  | m + 1, s => (blk s).2.bytes ++ blkBytes blk m (blk s).1

/-- The state after `m` blocks. -/
def blkState {σ : Type} (blk : σ → σ × Quad) : Nat → σ → σ
  | 0, s => s
  | m + 1, s => blkState blk m (blk s).1

theorem blkBytes_length {σ : Type} (blk : σ → σ × Quad) (m : Nat) (s : σ) :
    (blkBytes blk m s).length = 16 * m := by
  induction m generalizing s with
  | zero => rfl
  | succ m ih => simp [blkBytes, ih]; omega

theorem blkState_add {σ : Type} (blk : σ → σ × Quad) (m n : Nat) (s : σ) :
    blkState blk (m + n) s = blkState blk n (blkState blk m s) := by
  induction m generalizing s with
  | zero => simp [blkState]
  | succ m ih => rw [Nat.add_right_comm, blkState, ih]; rfl

theorem blkBytes_add {σ : Type} (blk : σ → σ × Quad) (m n : Nat) (s : σ) :
    blkBytes blk (m + n) s = blkBytes blk m s ++ blkBytes blk n (blkState blk m s) := by
  induction m generalizing s with
  | zero => simp [blkState, blkBytes]
  | succ m ih => rw [Nat.add_right_comm, blkBytes, ih, blkBytes, List.append_assoc]; rfl

theorem blkState_succ {σ : Type} (blk : σ → σ × Quad) (m : Nat) (s : σ) :
    blkState blk (m + 1) s = (blk (blkState blk m s)).1 := by rw [blkState_add]; rfl

theorem Io.blockLoop_xored {σ : Type} (blk : σ → σ × Quad) {io : Io} :
    ∀ (fuel n off : Nat) (s : σ) (pre : List U8),
    pre.length = off → n < fuel → io.Fits (off + n) →
    Io.blockLoop blk fuel n off s (io.xored pre) =
      .ok (n % 16, off + 16 * (n / 16), blkState blk (n / 16) s,
        io.xored (pre ++ blkBytes blk (n / 16) s)) := by
  intro fuel
  induction fuel with
  | zero => intro n _ _ _ _ h; omega
  | succ fuel ih =>
    intro n off s pre hp hn hf
    rw [blockLoop]
    split
    · rename_i h3
      simp only []
      rw [xor32_xored hp (hf.mono (by omega))]
      simp only [Res.ok_bind]
      rw [xor32_xored (by simp [hp, bytesLE32_length]) (hf.mono (by omega))]
      simp only [Res.ok_bind]
      rw [xor32_xored (by simp [hp, bytesLE32_length]) (hf.mono (by omega))]
      simp only [Res.ok_bind]
      rw [xor32_xored (by simp [hp, bytesLE32_length]) (hf.mono (by omega))]
      simp only [Res.ok_bind]
      rw [ih (n - 16) (off + 16) _ _ (by simp [hp, bytesLE32_length]) (by omega) (hf.mono (by omega))]
      have e1 : n / 16 = (n - 16) / 16 + 1 := by omega
      have e2 : (n - 16) % 16 = n % 16 := by omega
      rw [e2, e1]
      simp only [Res.ok_inj, Prod.mk.injEq, true_and]
      refine ⟨by omega, rfl, ?_⟩
      congr 1
      simp [blkBytes, Quad.bytes, Quad.toList, wordsToBytesLE_cons]
    · rename_i h3
      have e0 : n / 16 = 0 := by omega
      have e1 : n % 16 = n := by omega
      simp [e0, e1, blkBytes, blkState]

end CT
