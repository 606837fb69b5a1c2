import Verif.Proof.AESCtr
import Verif.Model.ChaCha
import Verif.Spec.ByteSwap

/-!
# Byte order helper (C84)
-/

namespace CT.Props.ByteSwap
open CT.ChaCha CT.Spec.ByteSwap

theorem swap32_le32 (a b c d : U8) : swap32 (le32 a b c d) = le32 d c b a := by
  rw [← AES.swap32_le32 a b c d]
  simp only [swap32, AES.swap32, BitVec.or_assoc]
  congr 1
  rw [← BitVec.or_assoc, BitVec.or_comm ((le32 a b c d <<< 8) &&& _), BitVec.or_assoc]

/-- What the input pointer sees is replaced. -/
def setSrc (io : Io) (l : List U8) : Io := if io.alias then { io with out := l } else { io with inp := l }

theorem setSrc_src (io : Io) (l : List U8) : (setSrc io l).src = l := by
  cases h : io.alias <;> simp [setSrc, Io.src, h]

theorem setSrc_setSrc (io : Io) (l m : List U8) : setSrc (setSrc io l) m = setSrc io m := by
  cases h : io.alias <;> simp [setSrc, h]

theorem setSrc_self (io : Io) : setSrc io io.src = io := by
  cases h : io.alias <;> simp [setSrc, Io.src, h] <;> (cases io; simp_all)

theorem rd8_append {io : Io} {p l : List U8} (h : io.src = p ++ l) {i : Nat} (k : Nat) (hi : i = p.length + k) :
    io.rd8 i = Mem.rd l k := by
  subst hi
  simp only [Io.rd8, h, Mem.rd, List.getElem?_append_right (Nat.le_add_right _ _), Nat.add_sub_cancel_left]
  cases l[k]? <;> rfl

theorem loop_eq : ∀ (n i : Nat) (io : Io) (p l : List U8), io.src = p ++ l → p.length = 4 * i → 4 * n ≤ l.length →
    byteSwapLoop n i io = .ok (setSrc io (p ++ swapWords (l.take (4 * n)) ++ l.drop (4 * n)))
  | 0, i, io, p, l, h, hp, hn => by
    simp only [byteSwapLoop, Nat.mul_zero, List.take_zero, List.drop_zero, swapWords, List.append_nil, ← h, setSrc_self]
  | n + 1, i, io, p, a :: b :: c :: d :: l, h, hp, hn => by
    have r : io.rd32 (4 * i) = .ok (le32 a b c d) := by
      simp only [Io.rd32, rd8_append h 0 (by omega : 4 * i = _), rd8_append h 1 (by omega : 4 * i + 1 = _),
        rd8_append h 2 (by omega : 4 * i + 2 = _), rd8_append h 3 (by omega : 4 * i + 3 = _)]
      rfl
    have w : storeIn io i (swap32 (le32 a b c d)) = .ok (setSrc io ((p ++ [d, c, b, a]) ++ l)) := by
      have := Mem.wrs_append (p := p) (l := a :: b :: c :: d :: l) (bytesLE32 (le32 d c b a))
        (by simp [bytesLE32_le32])
      rw [hp, bytesLE32_le32] at this
      simp only [storeIn, h, swap32_le32, bytesLE32_le32, this, Res.ok_bind, setSrc, Res.pure_eq]
      rfl
    rw [byteSwapLoop, r]
    simp only [Res.ok_bind, w]
    rw [loop_eq n (i + 1) _ (p ++ [d, c, b, a]) l (setSrc_src _ _) (by simp; omega)
      (by simp only [List.length_cons] at hn; omega), setSrc_setSrc,
      show 4 * (n + 1) = 4 * n + 4 by omega]
    simp [swapWords]
  | n + 1, i, io, p, [], h, hp, hn => by simp at hn
  | n + 1, i, io, p, [_], h, hp, hn => by simp at hn; omega
  | n + 1, i, io, p, [_, _], h, hp, hn => by simp at hn; omega
  | n + 1, i, io, p, [_, _, _], h, hp, hn => by simp at hn; omega

theorem swapWords_append : ∀ (n : Nat) (a b : List U8), a.length = 4 * n → swapWords (a ++ b) = swapWords a ++ swapWords b
  | 0, a, b, h => by rw [List.length_eq_zero_iff.mp h]; rfl
  | n + 1, x :: y :: z :: w :: a, b, h => by
    simp [swapWords, swapWords_append n a b (by simp at h; omega)]
  | n + 1, [], b, h => by simp at h
  | n + 1, [_], b, h => by simp at h; omega
  | n + 1, [_, _], b, h => by simp at h; omega
  | n + 1, [_, _, _], b, h => by simp at h; omega

theorem swapWords_short : ∀ (l : List U8), l.length < 4 → swapWords l = l
  | [], _ => rfl
  | [_], _ => rfl
  | [_, _], _ => rfl
  | [_, _, _], _ => rfl
  | _ :: _ :: _ :: _ :: _, h => by simp at h; omega

theorem swapWords_length : ∀ l : List U8, (swapWords l).length = l.length
  | a :: b :: c :: d :: l => by simp [swapWords, swapWords_length l]
  | [] => rfl
  | [_] => rfl
  | [_, _] => rfl
  | [_, _, _] => rfl

theorem swapWords_take (l : List U8) (n : Nat) (h : n ≤ l.length) :
    swapWords (l.take (4 * (n / 4))) ++ l.drop (4 * (n / 4)) = swapWords (l.take n) ++ l.drop n := by
  have e : l.take n = l.take (4 * (n / 4)) ++ (l.drop (4 * (n / 4))).take (n % 4) := by
    conv => lhs; rw [show n = 4 * (n / 4) + n % 4 by omega, List.take_add]
  have d : l.drop n = (l.drop (4 * (n / 4))).drop (n % 4) := by
    rw [List.drop_drop]; congr 1; omega
  rw [e, swapWords_append (n / 4) _ _ (by rw [List.length_take]; omega),
    swapWords_short ((l.drop _).take _) (by rw [List.length_take]; omega), d, List.append_assoc,
    List.take_append_drop]

/-- What holds of C84, for every size: the bytes are reversed in the memory of the *input* pointer.  Only
the first `size` bytes are touched, and an incomplete last word stays.  If the pointers are different the
output is not written at all. -/
theorem byte_swap_exact (io : Io) (size : Int) (h : size ≤ io.src.length) :
    byteSwap io size = .ok (if io.alias
      then { io with out := swapWords (io.out.take size.toNat) ++ io.out.drop size.toNat }
      else { io with inp := swapWords (io.inp.take size.toNat) ++ io.inp.drop size.toNat }) := by
  have := loop_eq (size.toNat / 4) 0 io [] io.src rfl rfl (by omega)
  rw [byteSwap, this, List.nil_append, swapWords_take _ _ (by omega)]
  cases ha : io.alias <;> simp [setSrc, Io.src, ha]

example := byte_swap_exact ⟨[1, 2, 3, 4, 5, 6, 7, 8, 9], [], false⟩ 8 (by decide)

/-- C84 in place, the way the programs of the library call it: the words are reversed. -/
theorem byte_swap_in_place_partial (inp buf : List U8) (size : Int) (h : size ≤ buf.length) :
    byteSwap ⟨inp, buf, true⟩ size = .ok ⟨inp, swapWords (buf.take size.toNat) ++ buf.drop size.toNat, true⟩ := by
  have := byte_swap_exact ⟨inp, buf, true⟩ size h
  simpa using this

example := byte_swap_in_place_partial [] [1, 2, 3, 4, 5, 6, 7, 8, 9] 8 (by decide)

/-- Swapping twice restores the buffers, in place or not. -/
theorem byte_swap_twice (io : Io) (size : Int) (h : size ≤ io.src.length) :
    (do let x ← byteSwap io size; byteSwap x size) = .ok io := by
  have inv : ∀ l : List U8, swapWords (swapWords l) = l := by
    intro l
    induction l using swapWords.induct with
    | case1 a b c d l ih => simp [swapWords, ih]
    | case2 l hl =>
      have : swapWords l = l := by
        rw [swapWords]; exact hl
      rw [this, this]
  have key : ∀ l : List U8, size ≤ l.length →
      swapWords ((swapWords (l.take size.toNat) ++ l.drop size.toNat).take size.toNat) ++
        (swapWords (l.take size.toNat) ++ l.drop size.toNat).drop size.toNat = l := by
    intro l hl
    have : (swapWords (l.take size.toNat)).length = size.toNat := by
      rw [swapWords_length, List.length_take]; omega
    rw [List.take_append_of_le_length (by omega), List.take_of_length_le (by omega), inv,
      List.drop_append_of_le_length (by omega), List.drop_of_length_le (by omega), List.nil_append,
      List.take_append_drop]
  rw [byte_swap_exact io size h]
  simp only [Res.ok_bind]
  obtain ⟨inp, out, al⟩ := io
  cases al with
  | false =>
    simp only [Io.src, Bool.false_eq_true, if_false] at h ⊢
    rw [byte_swap_exact _ _ (by
      simp only [Io.src, Bool.false_eq_true, if_false, List.length_append, swapWords_length, List.length_take,
        List.length_drop]; omega)]
    simp only [Bool.false_eq_true, if_false, key inp h]
  | true =>
    simp only [Io.src, if_true] at h ⊢
    rw [byte_swap_exact _ _ (by
      simp only [Io.src, if_true, List.length_append, swapWords_length, List.length_take,
        List.length_drop]; omega)]
    simp only [if_true, key out h]

example := byte_swap_twice ⟨[], [1, 2, 3, 4, 5, 6, 7, 8, 9], true⟩ 8 (by decide)

/-- C84 is false for separate buffers: no byte of the output changes, and the input does. -/
theorem byte_swap_refuted :
    ¬ ∀ (inp out : List U8) (size : Int), size ≤ inp.length → size ≤ out.length →
      byteSwap ⟨inp, out, false⟩ size = .ok ⟨inp, swapWords (inp.take size.toNat) ++ out.drop size.toNat, false⟩ := by
  intro h
  exact absurd (h [1, 2, 3, 4] [0, 0, 0, 0] 4 (by decide) (by decide)) (by decide)

/-- A case with an incomplete word, and one where the input is too short. -/
example : byteSwap ⟨[], [1, 2, 3, 4, 5, 6, 7, 8, 9, 10], true⟩ 10 = .ok ⟨[], [4, 3, 2, 1, 8, 7, 6, 5, 9, 10], true⟩ ∧
    byteSwap ⟨[1, 2, 3], [1, 2, 3, 4], false⟩ 4 = .ub .outOfBounds := by decide

end CT.Props.ByteSwap
