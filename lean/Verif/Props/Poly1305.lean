import Verif.Model.Poly1305

/-!
# Poly1305 clamping (C63)
-/

namespace CT.Props.Poly1305
open CT.Poly1305

/-- The number of 16 bytes, least significant first (RFC 7539, 2.5). -/
def number (r : Vector U8 16) : Nat := (List.finRange 16).foldr (fun i acc => (r.get i).toNat + 256 * acc) 0

/-- The mask of RFC 7539, byte by byte. -/
def mask : Vector U8 16 :=
  #v[255, 255, 255, 15, 252, 255, 255, 15, 252, 255, 255, 15, 252, 255, 255, 15]

theorem get_maskAt (r : Vector U8 16) (i j : Fin 16) (m : U8) :
    (maskAt r i m).get j = if i = j then r.get j &&& m else r.get j := by
  have e : (maskAt r i m).get j = (r.set i (r.get i &&& m))[j.val] := rfl
  rw [e, Vector.getElem_set]
  by_cases h : i = j
  · subst h; simp
  · rw [if_neg (fun h' => h (Fin.ext h')), if_neg h]; rfl

theorem clamp_get (r : Vector U8 16) (i : Fin 16) : (clamp r).get i = r.get i &&& mask.get i := by
  have ones : ∀ x : U8, x &&& 255 = x := by intro x; simpa using BitVec.and_allOnes (x := x)
  simp only [clamp, get_maskAt]
  match i with
  | ⟨0, _⟩ | ⟨1, _⟩ | ⟨2, _⟩ | ⟨5, _⟩ | ⟨6, _⟩ | ⟨9, _⟩ | ⟨10, _⟩ | ⟨13, _⟩ | ⟨14, _⟩ => exact (ones _).symm
  | ⟨3, _⟩ | ⟨4, _⟩ | ⟨7, _⟩ | ⟨8, _⟩ | ⟨11, _⟩ | ⟨12, _⟩ | ⟨15, _⟩ => rfl
  | ⟨k + 16, h⟩ => omega

theorem and_step (a m x M : Nat) (ha : a < 256) (hm : m < 256) :
    (a &&& m) + 256 * (x &&& M) = (a + 256 * x) &&& (m + 256 * M) := by
  have h : ∀ a x : Nat, a < 256 → a + 256 * x = x <<< 8 ||| a := by
    intro a x ha
    rw [Nat.add_comm, Nat.mul_comm, show 256 = 2 ^ 8 by rfl, ← Nat.shiftLeft_eq]
    exact Nat.shiftLeft_add_eq_or_of_lt ha x
  have hb : ∀ a : Nat, a < 256 → ∀ i, 8 ≤ i → a.testBit i = false := by
    intro a ha i hi
    exact Nat.testBit_lt_two_pow (Nat.lt_of_lt_of_le ha (Nat.pow_le_pow_right (n := 2) (by decide) hi))
  rw [h _ _ ha, h _ _ hm, h _ _ (Nat.lt_of_le_of_lt Nat.and_le_left ha)]
  apply Nat.eq_of_testBit_eq
  intro i
  simp only [Nat.testBit_or, Nat.testBit_and, Nat.testBit_shiftLeft]
  by_cases hi : 8 ≤ i
  · simp [hi, hb a ha i hi, hb m hm i hi]
  · simp [hi]

theorem number_and (a b c : Vector U8 16) (h : ∀ i, c.get i = a.get i &&& b.get i) : number c = number a &&& number b := by
  have : ∀ l : List (Fin 16), l.foldr (fun i acc => (c.get i).toNat + 256 * acc) 0 =
      l.foldr (fun i acc => (a.get i).toNat + 256 * acc) 0 &&& l.foldr (fun i acc => (b.get i).toNat + 256 * acc) 0 := by
    intro l
    induction l with
    | nil => simp
    | cons i l ih =>
      simp only [List.foldr_cons]
      rw [ih, h, BitVec.toNat_and, and_step _ _ _ _ (a.get i).isLt (b.get i).isLt]
  exact this _

/-- C63: clamping is `r &= 0x0ffffffc0ffffffc0ffffffc0fffffff` of RFC 7539, 2.5, on the number. -/
theorem clamp_rfc7539 (r : Vector U8 16) :
    number (clamp r) = number r &&& 0x0ffffffc0ffffffc0ffffffc0fffffff := by
  rw [number_and r mask (clamp r) (clamp_get r)]
  congr 1

/-- Non-trivial instance: the key of RFC 7539, 2.5.2. -/
example : number (clamp #v[0x85, 0xd6, 0xbe, 0x78, 0x57, 0x55, 0x6d, 0x33, 0x7f, 0x44, 0x52, 0xfe, 0x42, 0xd5, 0x06, 0xa8]) =
    0x806d5400e52447c036d555408bed685 := by decide +kernel

/-- C63: a bit of the result is the bit of the input, unless RFC 7539 requires it to be clear: the top
four bits of bytes 3, 7, 11, 15 and the bottom two bits of bytes 4, 8, 12. -/
theorem clamp_bits (r : Vector U8 16) (i : Fin 16) (j : Fin 8) :
    ((clamp r).get i).getLsbD j =
      (((r.get i).getLsbD j) && !(decide (i.val ∈ [3, 7, 11, 15]) && decide (4 ≤ j.val)) &&
        !(decide (i.val ∈ [4, 8, 12]) && decide (j.val < 2))) := by
  rw [clamp_get, BitVec.getLsbD_and, Bool.and_assoc]
  congr 1
  revert i j
  decide +kernel

/-- Clamping twice is clamping once. -/
theorem clamp_idempotent (r : Vector U8 16) : clamp (clamp r) = clamp r := by
  ext i hi : 1
  have h := fun (s : Vector U8 16) => clamp_get s ⟨i, hi⟩
  have h1 := h (clamp r)
  rw [h r, BitVec.and_assoc, BitVec.and_self, ← h r] at h1
  exact h1

end CT.Props.Poly1305
