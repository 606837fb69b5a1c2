import Verif.Model.SosemanukTables
import Verif.Proof.SosemanukLinearData

/-!
# The linear register of Sosemanuk from every fourth of its words

The register is linear over the field of two elements, so what ten words at distance four say about its contents is a matter of linear
algebra: `fromFourths` computes the contents.  That it does is checked for the 320 states with a single bit.
-/

namespace CT.Sosemanuk

/-! ### Linear maps -/

/-- The sum of those columns whose bit is set. -/
def lin {n m : Nat} : List (BitVec m) → Nat → BitVec n → BitVec m
  | [], _, _ => 0
  | c :: cs, j, x => (if x.getLsbD j then c else 0) ^^^ lin cs (j + 1) x

theorem xor4 {m : Nat} (a b c d : BitVec m) : (a ^^^ b) ^^^ (c ^^^ d) = (a ^^^ c) ^^^ (b ^^^ d) := by
  rw [BitVec.xor_assoc, BitVec.xor_assoc, ← BitVec.xor_assoc b, ← BitVec.xor_assoc c, BitVec.xor_comm b c]

theorem lin_xor {n m : Nat} (cs : List (BitVec m)) : ∀ (j : Nat) (x y : BitVec n), lin cs j (x ^^^ y) = lin cs j x ^^^ lin cs j y := by
  induction cs with
  | nil => intro j x y; simp [lin]
  | cons c cs ih =>
    intro j x y
    rw [lin, lin, lin, ih, BitVec.getLsbD_xor, xor4]
    congr 1
    cases x.getLsbD j <;> cases y.getLsbD j <;> simp

/-- A map that respects sums. -/
def Additive {n m : Nat} (f : BitVec n → BitVec m) : Prop := ∀ x y, f (x ^^^ y) = f x ^^^ f y

theorem Additive.zero {n m : Nat} {f : BitVec n → BitVec m} (h : Additive f) : f 0 = 0 := by
  have e := h 0 0
  rw [BitVec.xor_self, BitVec.xor_self] at e
  simpa using e

/-- The lowest `k` bits of a word. -/
def lowBits (x : U32) (k : Nat) : U32 := (x.setWidth k).setWidth 32

theorem lowBits_succ (x : U32) (k : Nat) (hk : k < 32) :
    lowBits x (k + 1) = lowBits x k ^^^ (if x.getLsbD k then BitVec.twoPow 32 k else 0) := by
  apply BitVec.eq_of_getLsbD_eq
  intro i hi
  unfold lowBits
  cases e : x.getLsbD k <;> simp only [BitVec.getLsbD_xor, BitVec.getLsbD_setWidth, BitVec.getLsbD_twoPow, if_true, if_false, hi, hk,
    decide_true, Bool.true_and, Bool.false_eq_true]
  · by_cases h : i = k
    · subst h; simp [e]
    · simp [show (i < k + 1 ↔ i < k) by omega]
  · by_cases h : i = k
    · subst h; simp [e]
    · simp [show (i < k + 1 ↔ i < k) by omega, show k ≠ i by omega]

/-- Two additive maps on words that agree on the words with one bit agree. -/
theorem additive_ext {m : Nat} {f g : U32 → BitVec m} (hf : Additive f) (hg : Additive g)
    (h : ∀ j < 32, f (BitVec.twoPow 32 j) = g (BitVec.twoPow 32 j)) (x : U32) : f x = g x := by
  have e : ∀ k ≤ 32, f (lowBits x k) = g (lowBits x k) := by
    intro k
    induction k with
    | zero =>
      intro _
      rw [show lowBits x 0 = 0 by apply BitVec.eq_of_getLsbD_eq; intro i _; simp [lowBits], hf.zero, hg.zero]
    | succ k ih =>
      intro hk
      rw [lowBits_succ x k (by omega), hf, hg, ih (by omega)]
      congr 1
      by_cases hb : x.getLsbD k = true
      · rw [if_pos hb]; exact h k (by omega)
      · rw [if_neg hb, hf.zero, hg.zero]
  have := e 32 (by omega)
  rwa [show lowBits x 32 = x by simp [lowBits]] at this

/-! ### The register -/

/-- The columns of the table `alpha`. -/
def alphaCols : List U32 := [0xe19fcf13, 0x6b973726, 0xd6876e4c, 0x05a7dc98, 0x0ae71199, 0x1467229b, 0x28ce449f, 0x50358897]
/-- The columns of the table `inv_alpha`. -/
def invAlphaCols : List U32 := [0x180f40cd, 0x301e8033, 0x603ca966, 0xc078fbcc, 0x29f05f31, 0x5249be62, 0xa492d5c4, 0xe18d0321]

theorem alpha_lin : ∀ x : U8, alpha.getD x.toNat 0 = lin alphaCols 0 x := by decide +kernel
theorem invAlpha_lin : ∀ x : U8, invAlpha.getD x.toNat 0 = lin invAlphaCols 0 x := by decide +kernel

/-- The word that comes in. -/
def feed (s0 s3 s9 : U32) : U32 :=
  (((s3 >>> 8) ^^^ invAlpha.getD (byteN s3 0).toNat 0) ^^^ ((s0 <<< 8) ^^^ alpha.getD (byteN (s0 >>> 24) 0).toNat 0)) ^^^ s9

theorem byteN_xor' (a b : U32) (k : Nat) : byteN (a ^^^ b) k = byteN a k ^^^ byteN b k := by
  apply BitVec.eq_of_getLsbD_eq
  intro i hi
  simp [byteN, BitVec.getLsbD_xor, hi]

theorem feed_xor (a b c a' b' c' : U32) : feed (a ^^^ a') (b ^^^ b') (c ^^^ c') = feed a b c ^^^ feed a' b' c' := by
  unfold feed
  simp only [alpha_lin, invAlpha_lin, byteN_xor', lin_xor, BitVec.ushiftRight_xor_distrib, BitVec.shiftLeft_xor_distrib]
  rw [xor4 (b >>> 8), xor4 (a <<< 8), xor4 (_ ^^^ _) (_ ^^^ _) (_ ^^^ _), xor4 (_ ^^^ _) (_ ^^^ _) c]

/-- The register: ten words. -/
structure Reg where
  x0 : U32
  x1 : U32
  x2 : U32
  x3 : U32
  x4 : U32
  x5 : U32
  x6 : U32
  x7 : U32
  x8 : U32
  x9 : U32
  deriving DecidableEq

/-- The sum. -/
def Reg.xor (a b : Reg) : Reg :=
  ⟨a.x0 ^^^ b.x0, a.x1 ^^^ b.x1, a.x2 ^^^ b.x2, a.x3 ^^^ b.x3, a.x4 ^^^ b.x4, a.x5 ^^^ b.x5, a.x6 ^^^ b.x6, a.x7 ^^^ b.x7, a.x8 ^^^ b.x8,
    a.x9 ^^^ b.x9⟩

/-- Four steps. -/
def Reg.four (a : Reg) : Reg :=
  let y0 := feed a.x0 a.x3 a.x9
  let y1 := feed a.x1 a.x4 y0
  let y2 := feed a.x2 a.x5 y1
  let y3 := feed a.x3 a.x6 y2
  ⟨a.x4, a.x5, a.x6, a.x7, a.x8, a.x9, y0, y1, y2, y3⟩

theorem Reg.four_xor (a b : Reg) : (a.xor b).four = a.four.xor b.four := by
  unfold Reg.four Reg.xor
  simp only [feed_xor]

/-- Every fourth word, `n` of them. -/
def Reg.fourths : Nat → Reg → List U32
  | 0, _ => []
  | n + 1, a => a.x3 :: fourths n a.four

theorem Reg.fourths_xor (n : Nat) : ∀ a b : Reg, fourths n (a.xor b) = List.zipWith (· ^^^ ·) (fourths n a) (fourths n b) := by
  induction n with
  | zero => intro a b; rfl
  | succ n ih => intro a b; rw [fourths, Reg.four_xor, ih]; rfl

/-- The columns, in the order of the words. -/
def invCols : List (List (BitVec 320)) :=
  [invCols0, invCols1, invCols2, invCols3, invCols4, invCols5, invCols6, invCols7, invCols8, invCols9]

/-- The inverse, packed. -/
def solve : List (List (BitVec 320)) → List U32 → BitVec 320
  | c :: cs, w :: ws => lin c 0 w ^^^ solve cs ws
  | _, _ => 0

theorem solve_xor (cs : List (List (BitVec 320))) : ∀ a b : List U32, a.length = b.length →
    solve cs (List.zipWith (· ^^^ ·) a b) = solve cs a ^^^ solve cs b := by
  induction cs with
  | nil => intro a b _; simp [solve]
  | cons c cs ih =>
    intro a b h
    match a, b, h with
    | [], [], _ => simp [solve]
    | x :: xs, y :: ys, h => rw [List.zipWith_cons_cons, solve, solve, solve, ih xs ys (by simpa using h), lin_xor, xor4]

/-- A word at place `i`. -/
def at_ (i : Nat) (x : U32) : BitVec 320 := x.setWidth 320 <<< (32 * i)

/-- The register, packed. -/
def Reg.pack (a : Reg) : BitVec 320 :=
  at_ 0 a.x0 ^^^ at_ 1 a.x1 ^^^ at_ 2 a.x2 ^^^ at_ 3 a.x3 ^^^ at_ 4 a.x4 ^^^ at_ 5 a.x5 ^^^ at_ 6 a.x6 ^^^ at_ 7 a.x7 ^^^ at_ 8 a.x8 ^^^
    at_ 9 a.x9

/-- A register with one word. -/
def Reg.single (x : U32) : Nat → Reg
  | 0 => ⟨x, 0, 0, 0, 0, 0, 0, 0, 0, 0⟩
  | 1 => ⟨0, x, 0, 0, 0, 0, 0, 0, 0, 0⟩
  | 2 => ⟨0, 0, x, 0, 0, 0, 0, 0, 0, 0⟩
  | 3 => ⟨0, 0, 0, x, 0, 0, 0, 0, 0, 0⟩
  | 4 => ⟨0, 0, 0, 0, x, 0, 0, 0, 0, 0⟩
  | 5 => ⟨0, 0, 0, 0, 0, x, 0, 0, 0, 0⟩
  | 6 => ⟨0, 0, 0, 0, 0, 0, x, 0, 0, 0⟩
  | 7 => ⟨0, 0, 0, 0, 0, 0, 0, x, 0, 0⟩
  | 8 => ⟨0, 0, 0, 0, 0, 0, 0, 0, x, 0⟩
  | _ => ⟨0, 0, 0, 0, 0, 0, 0, 0, 0, x⟩

/-- What is solved for a state with one bit. -/
theorem check : ∀ i < 10, ∀ j < 32, solve invCols (Reg.fourths 10 (Reg.single (BitVec.twoPow 32 j) i)) =
    BitVec.twoPow 320 (32 * i + j) := by decide +kernel

theorem single_xor (x y : U32) (i : Nat) : Reg.single (x ^^^ y) i = (Reg.single x i).xor (Reg.single y i) := by
  unfold Reg.single
  split <;> simp [Reg.xor]

theorem fourths_length (n : Nat) : ∀ a : Reg, (a.fourths n).length = n := by
  induction n with
  | zero => intro a; rfl
  | succ n ih => intro a; rw [Reg.fourths, List.length_cons, ih]

theorem solve_fourths_xor (a b : Reg) :
    solve invCols ((a.xor b).fourths 10) = solve invCols (a.fourths 10) ^^^ solve invCols (b.fourths 10) := by
  rw [Reg.fourths_xor, solve_xor _ _ _ (by rw [fourths_length, fourths_length])]

theorem at_xor (i : Nat) (x y : U32) : at_ i (x ^^^ y) = at_ i x ^^^ at_ i y := by
  unfold at_
  rw [BitVec.setWidth_xor, BitVec.shiftLeft_xor_distrib]

theorem at_twoPow (i j : Nat) (hj : j < 32) : at_ i (BitVec.twoPow 32 j) = BitVec.twoPow 320 (32 * i + j) := by
  apply BitVec.eq_of_getLsbD_eq
  intro k hk
  unfold at_
  rw [BitVec.getLsbD_shiftLeft, BitVec.getLsbD_setWidth, BitVec.getLsbD_twoPow, BitVec.getLsbD_twoPow]
  by_cases h : 32 * i + j = k
  · subst h; simp [hj, hk]; omega
  · simp only [h, hk, hj, decide_true, decide_false, Bool.true_and, Bool.and_false]
    by_cases h2 : k < 32 * i
    · simp [h2]
    · simp [show ¬ j = k - 32 * i by omega]

theorem solve_single (i : Nat) (hi : i < 10) (x : U32) : solve invCols ((Reg.single x i).fourths 10) = at_ i x :=
  additive_ext (f := fun x => solve invCols ((Reg.single x i).fourths 10)) (g := at_ i)
    (fun x y => by simp only [single_xor, solve_fourths_xor]) (at_xor i)
    (fun j hj => (check i hi j hj).trans (at_twoPow i j hj).symm) x

theorem reg_sum (a : Reg) : a = (((((((((Reg.single a.x0 0).xor (Reg.single a.x1 1)).xor (Reg.single a.x2 2)).xor (Reg.single a.x3 3)).xor
    (Reg.single a.x4 4)).xor (Reg.single a.x5 5)).xor (Reg.single a.x6 6)).xor (Reg.single a.x7 7)).xor (Reg.single a.x8 8)).xor
    (Reg.single a.x9 9) := by
  simp [Reg.single, Reg.xor]

/-- Ten words at distance four lead back to the contents, packed. -/
theorem solve_fourths (a : Reg) : solve invCols (a.fourths 10) = a.pack := by
  have e := congrArg (fun a : Reg => solve invCols (a.fourths 10)) (reg_sum a)
  simp only [solve_fourths_xor] at e
  rw [e, solve_single 0 (by omega), solve_single 1 (by omega), solve_single 2 (by omega), solve_single 3 (by omega),
    solve_single 4 (by omega), solve_single 5 (by omega), solve_single 6 (by omega), solve_single 7 (by omega),
    solve_single 8 (by omega), solve_single 9 (by omega)]
  rfl

/-- The word at place `i`. -/
def wordAt (v : BitVec 320) (i : Nat) : U32 := v.extractLsb' (32 * i) 32

theorem wordAt_xor (v w : BitVec 320) (i : Nat) : wordAt (v ^^^ w) i = wordAt v i ^^^ wordAt w i := by
  apply BitVec.eq_of_getLsbD_eq
  intro k hk
  simp [wordAt, BitVec.getLsbD_xor, hk]

theorem wordAt_at (i k : Nat) (x : U32) (hk : k < 10) : wordAt (at_ k x) i = if i = k then x else 0 := by
  apply BitVec.eq_of_getLsbD_eq
  intro j hj
  unfold wordAt at_
  rw [BitVec.getLsbD_extractLsb', BitVec.getLsbD_shiftLeft, BitVec.getLsbD_setWidth]
  by_cases h : i = k
  · subst h
    rw [if_pos rfl, show 32 * i + j - 32 * i = j by omega]
    simp [hj, show 32 * i + j < 320 by omega, show j < 320 by omega, show ¬ 32 * i + j < 32 * i by omega]
  · rw [if_neg h]
    by_cases h2 : 32 * i + j < 32 * k
    · simp [h2]
    · rw [BitVec.getLsbD_of_ge x _ (show 32 ≤ 32 * i + j - 32 * k by omega)]
      simp

/-- The contents of the linear register, from ten words at distance four, the first of which is the fourth word of the register. -/
def fromFourths (ws : List U32) : List U32 := (List.range 10).map (wordAt (solve invCols ws))

theorem fromFourths_fourths (a : Reg) :
    fromFourths (a.fourths 10) = [a.x0, a.x1, a.x2, a.x3, a.x4, a.x5, a.x6, a.x7, a.x8, a.x9] := by
  unfold fromFourths
  rw [solve_fourths]
  have e : ∀ i, wordAt a.pack i = (if i = 0 then a.x0 else 0) ^^^ (if i = 1 then a.x1 else 0) ^^^ (if i = 2 then a.x2 else 0) ^^^
      (if i = 3 then a.x3 else 0) ^^^ (if i = 4 then a.x4 else 0) ^^^ (if i = 5 then a.x5 else 0) ^^^ (if i = 6 then a.x6 else 0) ^^^
      (if i = 7 then a.x7 else 0) ^^^ (if i = 8 then a.x8 else 0) ^^^ (if i = 9 then a.x9 else 0) := by
    intro i
    unfold Reg.pack
    simp only [wordAt_xor]
    rw [wordAt_at _ 0 _ (by omega), wordAt_at _ 1 _ (by omega), wordAt_at _ 2 _ (by omega), wordAt_at _ 3 _ (by omega),
      wordAt_at _ 4 _ (by omega), wordAt_at _ 5 _ (by omega), wordAt_at _ 6 _ (by omega), wordAt_at _ 7 _ (by omega),
      wordAt_at _ 8 _ (by omega), wordAt_at _ 9 _ (by omega)]
  show [_, _, _, _, _, _, _, _, _, _] = _
  simp [e]

end CT.Sosemanuk
