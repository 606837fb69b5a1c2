import Verif.Basic.Bytes

/-!
# Input and output buffers of the packet functions

All packet functions of the library take an output pointer and an input pointer.  `Io` is what the
two pointers give access to: the bytes from each pointer to the end of the object it points into.
The two buffers are either disjoint (`alias = false`) or the very same memory (`alias = true`,
in-place processing, which the library itself uses in `labeled_he.cpp`); for partially
overlapping buffers see `Verif.Model.Overlap`.  Every access is bounds checked and an access outside is
undefined behaviour.
-/

namespace CT

structure Io where
  /-- bytes reachable from the input pointer (ignored when `alias`) -/
  inp : List U8
  /-- bytes reachable from the output pointer -/
  out : List U8
  /-- both pointers are equal -/
  alias : Bool
  deriving DecidableEq, Repr

namespace Io

/-- What the input pointer currently sees. -/
def src (io : Io) : List U8 := if io.alias then io.out else io.inp

/-- Read byte `i` from the input pointer. -/
def rd8 (io : Io) (i : Nat) : Res U8 :=
  match io.src[i]? with
  | some b => .ok b
  | none => .ub .outOfBounds

/-- Read byte `i` back from the output pointer. -/
def rdOut8 (io : Io) (i : Nat) : Res U8 :=
  match io.out[i]? with
  | some b => .ok b
  | none => .ub .outOfBounds

/-- Write byte `i` through the output pointer. -/
def wr8 (io : Io) (i : Nat) (b : U8) : Res Io :=
  if i < io.out.length then .ok { io with out := io.out.set i b } else .ub .outOfBounds

/-- Read the little-endian word at byte offset `i` from the input pointer. -/
def rd32 (io : Io) (i : Nat) : Res U32 := do
  let b0 ← io.rd8 i
  let b1 ← io.rd8 (i + 1)
  let b2 ← io.rd8 (i + 2)
  let b3 ← io.rd8 (i + 3)
  return le32 b0 b1 b2 b3

/-- Read the little-endian word at byte offset `i` back from the output pointer. -/
def rdOut32 (io : Io) (i : Nat) : Res U32 := do
  let b0 ← io.rdOut8 i
  let b1 ← io.rdOut8 (i + 1)
  let b2 ← io.rdOut8 (i + 2)
  let b3 ← io.rdOut8 (i + 3)
  return le32 b0 b1 b2 b3

/-- Write a little-endian word at byte offset `i` through the output pointer. -/
def wr32 (io : Io) (i : Nat) (w : U32) : Res Io := do
  let io ← io.wr8 i (byteN w 0)
  let io ← io.wr8 (i + 1) (byteN w 1)
  let io ← io.wr8 (i + 2) (byteN w 2)
  io.wr8 (i + 3) (byteN w 3)

/-- `out[i] = in[i] ^ k` for one byte. -/
def xor8 (io : Io) (i : Nat) (k : U8) : Res Io := do
  let b ← io.rd8 i
  io.wr8 i (b ^^^ k)

/-- `((uint32_t*)(out+i))[0] = ((uint32_t*)(in+i))[0] ^ k`. -/
def xor32 (io : Io) (i : Nat) (k : U32) : Res Io := do
  let w ← io.rd32 i
  io.wr32 i (w ^^^ k)

/-! ### The effect of a stream cipher on the buffers -/

/-- The buffers after the first `ks.length` bytes were encrypted with the keystream `ks`. -/
def xored (io : Io) (ks : List U8) : Io :=
  { io with out := xorBytes (io.src.take ks.length) ks ++ io.out.drop ks.length }

/-- Both buffers hold at least `n` bytes. -/
def Fits (io : Io) (n : Nat) : Prop := n ≤ io.src.length ∧ n ≤ io.out.length

instance (io : Io) (n : Nat) : Decidable (io.Fits n) := inferInstanceAs (Decidable (_ ∧ _))

theorem Fits.mono {io : Io} {m n : Nat} (h : io.Fits n) (hm : m ≤ n) : io.Fits m :=
  ⟨Nat.le_trans hm h.1, Nat.le_trans hm h.2⟩

@[simp] theorem xored_alias (io : Io) (ks : List U8) : (io.xored ks).alias = io.alias := rfl
@[simp] theorem xored_inp (io : Io) (ks : List U8) : (io.xored ks).inp = io.inp := rfl

theorem xored_nil (io : Io) : io.xored [] = io := by
  simp [xored]

theorem xored_out_length {io : Io} {ks : List U8} (h : io.Fits ks.length) :
    (io.xored ks).out.length = io.out.length := by
  have h1 := h.1
  have h2 := h.2
  simp only [xored, List.length_append, xorBytes_length, List.length_take, List.length_drop]
  omega

theorem xored_src_length {io : Io} {ks : List U8} (h : io.Fits ks.length) :
    (io.xored ks).src.length = io.src.length := by
  have h1 := xored_out_length h
  cases ha : io.alias <;> simp_all [src]

/-- The input pointer still sees the original bytes behind the processed part, in both modes. -/
theorem xored_src_get {io : Io} {ks : List U8} (h : io.Fits ks.length) {i : Nat}
    (hi : ks.length ≤ i) : (io.xored ks).src[i]? = io.src[i]? := by
  cases ha : io.alias with
  | false => simp [src, ha]
  | true =>
    have h2 := h.2
    simp only [src, xored, ha, if_true]
    rw [List.getElem?_append_right (by simp; omega)]
    simp only [List.getElem?_drop, xorBytes_length, List.length_take]
    congr 1; omega

theorem rd8_eq {io : Io} {i : Nat} (h : i < io.src.length) : io.rd8 i = .ok io.src[i] := by
  simp [rd8, h]

/-- One byte step of the encryption loop. -/
theorem xor8_xored {io : Io} {ks : List U8} {n : Nat} {k : U8} (hn : ks.length = n)
    (h : io.Fits (n + 1)) : (io.xored ks).xor8 n k = .ok (io.xored (ks ++ [k])) := by
  subst hn
  have hf := h.mono (Nat.le_succ _)
  have h1 := h.1
  have h2 := h.2
  have hlt : ks.length < io.src.length := by omega
  unfold xor8 rd8
  rw [xored_src_get hf (Nat.le_refl _), List.getElem?_eq_getElem hlt]
  simp only [Res.ok_bind, wr8, xored_out_length hf]
  rw [if_pos (by omega)]
  have hl : (xorBytes (List.take ks.length io.src) ks).length = ks.length := by simp; omega
  simp only [xored, Res.ok_inj, Io.mk.injEq, true_and, and_true]
  rw [List.set_append_right _ _ (by omega), hl, Nat.sub_self]
  have hd : io.out.drop ks.length = io.out[ks.length] :: io.out.drop (ks.length + 1) :=
    List.drop_eq_getElem_cons (by omega)
  rw [hd, List.set_cons_zero, List.length_append]
  have ht : io.src.take (ks.length + [k].length) = io.src.take ks.length ++ [io.src[ks.length]] := by
    rw [List.length_singleton, List.take_add_one, List.getElem?_eq_getElem hlt]; rfl
  rw [ht, xorBytes_append (by simp; omega)]
  simp

theorem rd8_of_wr8 {io io' : Io} {i j : Nat} {b : U8} (hij : i ≠ j) (h : io.wr8 i b = .ok io') :
    io'.rd8 j = io.rd8 j := by
  unfold wr8 at h
  split at h
  · cases h
    cases ha : io.alias <;> simp [rd8, src, ha, List.getElem?_set_ne hij]
  · cases h

theorem wr8_eq {io : Io} {i : Nat} {b : U8} (h : i < io.out.length) :
    io.wr8 i b = .ok { io with out := io.out.set i b } := by simp [wr8, h]

/-- A word step is four byte steps. -/
theorem xor32_eq_xor8 {io : Io} {n : Nat} {k : U32} (h : io.Fits (n + 4)) :
    io.xor32 n k = (do
      let io ← io.xor8 n (byteN k 0)
      let io ← io.xor8 (n + 1) (byteN k 1)
      let io ← io.xor8 (n + 2) (byteN k 2)
      io.xor8 (n + 3) (byteN k 3)) := by
  have h1 := h.1
  have h2 := h.2
  have g : ∀ j, j < n + 4 → ∃ b, io.rd8 j = .ok b := fun j hj => ⟨_, rd8_eq (by omega)⟩
  obtain ⟨b0, e0⟩ := g n (by omega)
  obtain ⟨b1, e1⟩ := g (n + 1) (by omega)
  obtain ⟨b2, e2⟩ := g (n + 2) (by omega)
  obtain ⟨b3, e3⟩ := g (n + 3) (by omega)
  obtain ⟨k0, k1, k2, k3⟩ := byteN_le32 b0 b1 b2 b3
  simp only [xor32, rd32, e0, e1, e2, e3, Res.ok_bind, Res.pure_eq, wr32, byteN_xor, k0, k1, k2, k3, xor8]
  obtain ⟨i1, w0⟩ : ∃ i1, io.wr8 n (b0 ^^^ byteN k 0) = .ok i1 := ⟨_, wr8_eq (by omega)⟩
  have l1 : i1.out.length = io.out.length := by
    rw [wr8_eq (by omega)] at w0; cases w0; simp
  obtain ⟨i2, w1⟩ : ∃ i2, i1.wr8 (n + 1) (b1 ^^^ byteN k 1) = .ok i2 := ⟨_, wr8_eq (by omega)⟩
  have l2 : i2.out.length = io.out.length := by
    rw [wr8_eq (by omega)] at w1; cases w1; simp [l1]
  obtain ⟨i3, w2⟩ : ∃ i3, i2.wr8 (n + 2) (b2 ^^^ byteN k 2) = .ok i3 := ⟨_, wr8_eq (by omega)⟩
  have r1 : i1.rd8 (n + 1) = .ok b1 := by rw [rd8_of_wr8 (by omega) w0, e1]
  have r2 : i2.rd8 (n + 2) = .ok b2 := by
    rw [rd8_of_wr8 (by omega) w1, rd8_of_wr8 (by omega) w0, e2]
  have r3 : i3.rd8 (n + 3) = .ok b3 := by
    rw [rd8_of_wr8 (by omega) w2, rd8_of_wr8 (by omega) w1, rd8_of_wr8 (by omega) w0, e3]
  simp only [w0, Res.ok_bind, r1, w1, r2, w2, r3]

/-- One word step of the encryption loop. -/
theorem xor32_xored {io : Io} {ks : List U8} {n : Nat} {k : U32} (hn : ks.length = n)
    (h : io.Fits (n + 4)) : (io.xored ks).xor32 n k = .ok (io.xored (ks ++ bytesLE32 k)) := by
  subst hn
  have hf : io.Fits ks.length := h.mono (by omega)
  rw [xor32_eq_xor8 ⟨by rw [xored_src_length hf]; exact h.1, by rw [xored_out_length hf]; exact h.2⟩]
  rw [xor8_xored rfl (h.mono (by omega))]
  simp only [Res.ok_bind]
  rw [xor8_xored (by simp) (h.mono (by omega))]
  simp only [Res.ok_bind]
  rw [xor8_xored (by simp) (h.mono (by omega))]
  simp only [Res.ok_bind]
  rw [xor8_xored (by simp) (h.mono (by omega))]
  simp [bytesLE32]

end Io
end CT
