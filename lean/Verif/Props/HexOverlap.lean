import Verif.Model.HexOverlap
import Verif.Props.Hex

/-!
# Hex encoder on buffers that overlap (C136)
-/

namespace CT.Props.HexOverlap
open CT.Hex

/-- `hex_encode` of the `n` bytes at offset `i` of the array `mem` to offset `o` stores the text and the zero byte that it
stores with separate buffers, and the rest of the array stays as it is. -/
def EncodeRight (mem : List U8) (o i n : Nat) : Prop :=
  ∃ t, t.length = 2 * n + 1 ∧ encode (List.replicate (2 * n + 1) 0) ((mem.drop i).take n) n = .ok t ∧
    encodeOv mem o i n = .ok (mem.take o ++ t ++ mem.drop (o + (2 * n + 1)))

/-- `hex_decode` of the `2n` characters at offset `i` of the array `mem` to offset `o` stores the bytes that it stores with
separate buffers, and the rest of the array stays as it is. -/
def DecodeRight (mem : List U8) (o i n : Nat) : Prop :=
  ∃ b, b.length = n ∧ decode (List.replicate n 0) ((mem.drop i).take (2 * n)) (2 * n : Nat) = .ok b ∧
    decodeOv mem o i (2 * n : Nat) = .ok (mem.take o ++ b ++ mem.drop (o + n))

/-! ### Lists by their elements -/

theorem ext_getD {a b : List U8} (hl : a.length = b.length) (h : ∀ j, j < a.length → a.getD j 0 = b.getD j 0) : a = b := by
  apply List.ext_getElem hl
  intro j h1 h2
  have := h j h1
  rwa [List.getD_eq_getElem?_getD, List.getD_eq_getElem?_getD, List.getElem?_eq_getElem h1, List.getElem?_eq_getElem h2] at this

theorem getD_set (l : List U8) (a b : Nat) (x : U8) (h : a < l.length) :
    (l.set a x).getD b 0 = if b = a then x else l.getD b 0 := by
  rw [List.getD_eq_getElem?_getD, List.getD_eq_getElem?_getD, List.getElem?_set]
  by_cases e : a = b
  · subst e; rw [if_pos rfl, if_pos h, if_pos rfl]; rfl
  · rw [if_neg e, if_neg (fun h => e h.symm)]

theorem splice_getD (l t : List U8) (o a : Nat) (h : o + t.length ≤ l.length) :
    (l.take o ++ t ++ l.drop (o + t.length)).getD a 0 =
      if o ≤ a ∧ a < o + t.length then t.getD (a - o) 0 else l.getD a 0 := by
  have hl : (l.take o).length = o := by rw [List.length_take]; omega
  simp only [List.getD_eq_getElem?_getD]
  by_cases h1 : a < o
  · rw [List.append_assoc, List.getElem?_append_left (by omega), if_neg (by omega), List.getElem?_take_of_lt h1]
  by_cases h2 : a < o + t.length
  · rw [List.getElem?_append_left (by rw [List.length_append]; omega), List.getElem?_append_right (by omega), hl,
      if_pos (by omega)]
  · rw [List.getElem?_append_right (by rw [List.length_append]; omega), if_neg (by omega), List.length_append, hl,
      List.getElem?_drop]
    congr 2; omega

theorem window_getD (l : List U8) (i n k : Nat) (h : k < n) : ((l.drop i).take n).getD k 0 = l.getD (i + k) 0 := by
  rw [List.getD_eq_getElem?_getD, List.getD_eq_getElem?_getD, List.getElem?_take_of_lt h, List.getElem?_drop]

theorem rd_getD (l : List U8) (k : Nat) (h : k < l.length) : Mem.rd l k = .ok (l.getD k 0) := by
  rw [Mem.rd_eq h, List.getD_eq_getElem?_getD, List.getElem?_eq_getElem h]; rfl

theorem wrs3 (l : List U8) (a : Nat) (x y z : U8) (h : a + 3 ≤ l.length) :
    Mem.wrs l a [x, y, z] = .ok (((l.set a x).set (a + 1) y).set (a + 2) z) := by
  simp only [Mem.wrs, Mem.wr]
  rw [if_pos (by omega)]
  simp only [Res.ok_bind]
  rw [if_pos (by rw [List.length_set]; omega)]
  simp only [Res.ok_bind]
  rw [if_pos (by simp only [List.length_set]; omega)]
  rfl

/-! ### Encoding -/

/-- The array after one iteration. -/
def put (o i k : Nat) (mem : List U8) : List U8 :=
  let b := mem.getD (i + k) 0
  ((mem.set (o + 2 * k) (sprintfDigit (b.toNat / 16))).set (o + 2 * k + 1) (sprintfDigit (b.toNat % 16))).set (o + 2 * k + 2) 0

theorem put_length (o i k : Nat) (mem : List U8) : (put o i k mem).length = mem.length := by
  simp [put]

theorem put_getD (o i k : Nat) (mem : List U8) (h : o + 2 * k + 3 ≤ mem.length) (a : Nat) :
    (put o i k mem).getD a 0 =
      if a = o + 2 * k then sprintfDigit ((mem.getD (i + k) 0).toNat / 16)
      else if a = o + 2 * k + 1 then sprintfDigit ((mem.getD (i + k) 0).toNat % 16)
      else if a = o + 2 * k + 2 then 0 else mem.getD a 0 := by
  unfold put
  dsimp only
  rw [getD_set _ _ _ _ (by simp only [List.length_set]; omega), getD_set _ _ _ _ (by simp only [List.length_set]; omega),
    getD_set _ _ _ _ (by omega)]
  by_cases h0 : a = o + 2 * k
  · rw [if_neg (by omega), if_neg (by omega), if_pos h0, if_pos h0]
  by_cases h1 : a = o + 2 * k + 1
  · rw [if_neg (by omega), if_pos h1, if_neg h0, if_pos h1]
  · rw [if_neg h0, if_neg h0, if_neg h1, if_neg h1]

theorem loop_step (o i n fuel k : Nat) (mem : List U8) (hk : k < n) (hn : n < 2 ^ 30) (hi : i + n ≤ mem.length)
    (ho : o + (2 * n + 1) ≤ mem.length) :
    encodeLoopOv o i n (fuel + 1) k (2 * k) mem = encodeLoopOv o i n fuel (k + 1) (2 * (k + 1)) (put o i k mem) := by
  rw [encodeLoopOv, if_neg (by omega), rd_getD _ _ (by omega)]
  simp only [Res.ok_bind, sprintf02X]
  rw [wrs3 _ _ _ _ _ (by omega)]
  simp only [Res.ok_bind]
  rw [if_neg (by omega)]
  rfl

theorem loop_last (o i n fuel : Nat) (mem : List U8) (ho : o + (2 * n + 1) ≤ mem.length) :
    encodeLoopOv o i n (fuel + 1) n (2 * n) mem = .ok (mem.set (o + 2 * n) 0) := by
  rw [encodeLoopOv, if_pos rfl, Mem.wr, if_pos (by omega)]

/-- What the loop does from iteration `k` on when no byte is overwritten before it is read. -/
theorem loop_right (o i n : Nat) (hn : n < 2 ^ 30) (hs : n ≤ 1 ∨ i + n ≤ o ∨ o + n ≤ i) : ∀ (m k fuel : Nat) (mem : List U8),
    k + m = n → m < fuel → i + n ≤ mem.length → o + (2 * n + 1) ≤ mem.length →
    ∃ r, encodeLoopOv o i n fuel k (2 * k) mem = .ok r ∧ r.length = mem.length ∧ ∀ a, r.getD a 0 =
      if o + 2 * k ≤ a ∧ a < o + 2 * n then
        (if (a - o) % 2 = 0 then sprintfDigit ((mem.getD (i + (a - o) / 2) 0).toNat / 16)
          else sprintfDigit ((mem.getD (i + (a - o) / 2) 0).toNat % 16))
      else if a = o + 2 * n then 0 else mem.getD a 0 := by
  intro m
  induction m with
  | zero =>
    intro k fuel mem hk hf hi ho
    obtain ⟨f, rfl⟩ : ∃ f, fuel = f + 1 := ⟨fuel - 1, by omega⟩
    have e : k = n := by omega
    subst e
    refine ⟨_, loop_last o i k f mem ho, by rw [List.length_set], fun a => ?_⟩
    rw [getD_set _ _ _ _ (by omega), if_neg (c := _ ∧ _) (by omega)]
  | succ m ih =>
    intro k fuel mem hk hf hi ho
    obtain ⟨f, rfl⟩ : ∃ f, fuel = f + 1 := ⟨fuel - 1, by omega⟩
    rw [loop_step o i n f k mem (by omega) hn hi ho]
    obtain ⟨r, h1, h2, h3⟩ := ih (k + 1) f (put o i k mem) (by omega) (by omega) (by rw [put_length]; exact hi)
      (by rw [put_length]; exact ho)
    refine ⟨r, h1, by rw [h2, put_length], fun a => ?_⟩
    rw [h3 a]
    by_cases c1 : o + 2 * (k + 1) ≤ a ∧ a < o + 2 * n
    · rw [if_pos c1, if_pos (c := o + 2 * k ≤ a ∧ a < o + 2 * n) (by omega)]
      have e : (put o i k mem).getD (i + (a - o) / 2) 0 = mem.getD (i + (a - o) / 2) 0 := by
        rw [put_getD _ _ _ _ (by omega), if_neg (by omega), if_neg (by omega), if_neg (by omega)]
      rw [e]
    rw [if_neg c1]
    by_cases c2 : a = o + 2 * n
    · rw [if_pos c2, if_neg (by omega), if_pos c2]
    rw [if_neg c2, put_getD _ _ _ _ (by omega)]
    by_cases c3 : a = o + 2 * k
    · have e : (a - o) / 2 = k := by omega
      rw [if_pos c3, if_pos (c := o + 2 * k ≤ a ∧ a < o + 2 * n) (by omega), if_pos (by omega), e]
    by_cases c4 : a = o + 2 * k + 1
    · have e : (a - o) / 2 = k := by omega
      rw [if_neg c3, if_pos c4, if_pos (c := o + 2 * k ≤ a ∧ a < o + 2 * n) (by omega), if_neg (by omega), e]
    · rw [if_neg c3, if_neg c4, if_neg (by omega), if_neg (by omega), if_neg c2]

theorem text_getD (bs : List U8) : ∀ j, j < 2 * bs.length → (Spec.Hex.encode bs ++ [0]).getD j 0 =
    if j % 2 = 0 then sprintfDigit ((bs.getD (j / 2) 0).toNat / 16) else sprintfDigit ((bs.getD (j / 2) 0).toNat % 16) := by
  induction bs with
  | nil => intro j h; simp at h
  | cons b bs ih =>
    intro j h
    have hb := b.isLt
    match j with
    | 0 => simp [Spec.Hex.encode, Props.Hex.digit_eq _ (show b.toNat / 16 < 16 by omega)]
    | 1 => simp [Spec.Hex.encode, Props.Hex.digit_eq _ (show b.toNat % 16 < 16 by omega)]
    | j + 2 =>
      have := ih j (by simp only [List.length_cons] at h; omega)
      have e : (j + 2) / 2 = j / 2 + 1 := by omega
      rw [e, Nat.add_mod_right]
      simpa [Spec.Hex.encode] using this

theorem text_end (bs : List U8) : (Spec.Hex.encode bs ++ [0]).getD (2 * bs.length) 0 = 0 := by
  rw [List.getD_eq_getElem?_getD, List.getElem?_append_right (by rw [Props.Hex.encode_length]; omega),
    Props.Hex.encode_length, Nat.sub_self]
  rfl

theorem separate (mem : List U8) (i n : Nat) (hn : n < 2 ^ 30) (hi : i + n ≤ mem.length) :
    encode (List.replicate (2 * n + 1) 0) ((mem.drop i).take n) n = .ok (Spec.Hex.encode ((mem.drop i).take n) ++ [0]) := by
  have hl : ((mem.drop i).take n).length = n := by rw [List.length_take, List.length_drop]; omega
  have := Props.Hex.hex_encode_writes ((mem.drop i).take n) (List.replicate (2 * n + 1) 0) (by omega) (by simp; omega)
  rw [hl] at this
  rw [this]
  simp

theorem encode_right (mem : List U8) (o i n : Nat) (hn : n < 2 ^ 30) (hi : i + n ≤ mem.length)
    (ho : o + (2 * n + 1) ≤ mem.length) (hs : n ≤ 1 ∨ i + n ≤ o ∨ o + n ≤ i) : EncodeRight mem o i n := by
  have hl : ((mem.drop i).take n).length = n := by rw [List.length_take, List.length_drop]; omega
  have ht : (Spec.Hex.encode ((mem.drop i).take n) ++ [0]).length = 2 * n + 1 := by
    rw [List.length_append, Props.Hex.encode_length, hl]; rfl
  refine ⟨_, ht, separate mem i n hn hi, ?_⟩
  obtain ⟨r, h1, h2, h3⟩ := loop_right o i n hn hs n 0 (mem.length + 1) mem (by omega) (by omega) hi ho
  rw [encodeOv, h1]
  congr 1
  apply ext_getD
  · rw [h2, List.length_append, List.length_append, ht, List.length_take, List.length_drop]; omega
  · intro a _
    have := splice_getD mem _ o a (by rw [ht]; exact ho)
    rw [ht] at this
    rw [this, h3 a]
    by_cases c1 : o ≤ a ∧ a < o + 2 * n
    · rw [if_pos (c := o + 2 * 0 ≤ a ∧ _) (by omega), if_pos (c := o ≤ a ∧ a < o + (2 * n + 1)) (by omega), text_getD _ _ (by omega), window_getD _ _ _ _ (by omega)]
    rw [if_neg (by omega)]
    by_cases c2 : a = o + 2 * n
    · have e := text_end ((mem.drop i).take n)
      rw [hl] at e
      rw [if_pos c2, if_pos (by omega), show a - o = 2 * n by omega, e]
    · rw [if_neg c2, if_neg (by omega)]

/-! Overwritten bytes: no character is 0xff. -/

theorem digit_small : ∀ n, n < 16 → sprintfDigit n ≠ 0xff := by decide

theorem not_FF (b : U8) (h : b ≠ 0xff) :
    ¬ (sprintfDigit (b.toNat / 16) = sprintfDigit 15 ∧ sprintfDigit (b.toNat % 16) = sprintfDigit 15) := by
  have inj : ∀ n, n < 16 → sprintfDigit n = sprintfDigit 15 → n = 15 := by decide
  rintro ⟨h1, h2⟩
  have hb := b.isLt
  have e1 := inj _ (by omega) h1
  have e2 := inj _ (by omega) h2
  exact h (BitVec.eq_of_toNat_eq (by rw [show (0xff : U8).toNat = 255 from rfl]; omega))

theorem loop_keeps (o i n : Nat) (hn : n < 2 ^ 30) : ∀ (m k fuel : Nat) (mem : List U8), k + m = n → m < fuel →
    i + n ≤ mem.length → o + (2 * n + 1) ≤ mem.length →
    ∃ r, encodeLoopOv o i n fuel k (2 * k) mem = .ok r ∧ ∀ a, a < o + 2 * k → r.getD a 0 = mem.getD a 0 := by
  intro m
  induction m with
  | zero =>
    intro k fuel mem hk hf hi ho
    obtain ⟨f, rfl⟩ : ∃ f, fuel = f + 1 := ⟨fuel - 1, by omega⟩
    have e : k = n := by omega
    subst e
    refine ⟨_, loop_last o i k f mem ho, fun a ha => ?_⟩
    rw [getD_set _ _ _ _ (by omega), if_neg (by omega)]
  | succ m ih =>
    intro k fuel mem hk hf hi ho
    obtain ⟨f, rfl⟩ : ∃ f, fuel = f + 1 := ⟨fuel - 1, by omega⟩
    rw [loop_step o i n f k mem (by omega) hn hi ho]
    obtain ⟨r, h1, h3⟩ := ih (k + 1) f (put o i k mem) (by omega) (by omega) (by rw [put_length]; exact hi)
      (by rw [put_length]; exact ho)
    refine ⟨r, h1, fun a ha => ?_⟩
    rw [h3 a (by omega), put_getD _ _ _ _ (by omega), if_neg (by omega), if_neg (by omega), if_neg (by omega)]

theorem put_small (o i k : Nat) (mem : List U8) (h : o + 2 * k + 3 ≤ mem.length)
    (hq : 0 < k → ∀ a, o ≤ a → a ≤ o + 2 * k → mem.getD a 0 ≠ 0xff) (a : Nat) (h1 : o ≤ a) (h2 : a ≤ o + 2 * (k + 1)) :
    (put o i k mem).getD a 0 ≠ 0xff := by
  have hb := (mem.getD (i + k) 0).isLt
  rw [put_getD _ _ _ _ h]
  split
  · exact digit_small _ (by omega)
  split
  · exact digit_small _ (by omega)
  split
  · decide
  · exact hq (by omega) a h1 (by omega)

/-- If byte `t` is read from a place that has been written before, its text is not `FF`. -/
theorem loop_wrong (o i n t : Nat) (hn : n < 2 ^ 30) (ht : t < n) (ht0 : 0 < t) (h1 : o ≤ i + t) (h2 : i + t ≤ o + 2 * t) :
    ∀ (d k fuel : Nat) (mem : List U8), k + d = t → n - k < fuel → i + n ≤ mem.length → o + (2 * n + 1) ≤ mem.length →
    (0 < k → ∀ a, o ≤ a → a ≤ o + 2 * k → mem.getD a 0 ≠ 0xff) →
    ∃ r, encodeLoopOv o i n fuel k (2 * k) mem = .ok r ∧
      ¬ (r.getD (o + 2 * t) 0 = sprintfDigit 15 ∧ r.getD (o + 2 * t + 1) 0 = sprintfDigit 15) := by
  intro d
  induction d with
  | zero =>
    intro k fuel mem hk hf hi ho hq
    obtain ⟨f, rfl⟩ : ∃ f, fuel = f + 1 := ⟨fuel - 1, by omega⟩
    have e : k = t := by omega
    subst e
    rw [loop_step o i n f k mem (by omega) hn hi ho]
    obtain ⟨r, g1, g2⟩ := loop_keeps o i n hn (n - (k + 1)) (k + 1) f (put o i k mem) (by omega) (by omega)
      (by rw [put_length]; exact hi) (by rw [put_length]; exact ho)
    refine ⟨r, g1, ?_⟩
    rw [g2 _ (by omega), g2 _ (by omega), put_getD _ _ _ _ (by omega), put_getD _ _ _ _ (by omega), if_pos rfl,
      if_neg (by omega), if_pos rfl]
    exact not_FF _ (hq ht0 _ h1 h2)
  | succ d ih =>
    intro k fuel mem hk hf hi ho hq
    obtain ⟨f, rfl⟩ : ∃ f, fuel = f + 1 := ⟨fuel - 1, by omega⟩
    rw [loop_step o i n f k mem (by omega) hn hi ho]
    exact ih (k + 1) f (put o i k mem) (by omega) (by omega) (by rw [put_length]; exact hi) (by rw [put_length]; exact ho)
      (fun _ a g1 g2 => put_small o i k mem (by omega) hq a g1 g2)

theorem encode_wrong (o i n L : Nat) (hn : n < 2 ^ 30) (hi : i + n ≤ L) (ho : o + (2 * n + 1) ≤ L) (h2 : 2 ≤ n)
    (h3 : o < i + n) (h4 : i < o + n) : ¬ EncodeRight (List.replicate L 0xff) o i n := by
  rintro ⟨t, ht, hs, hr⟩
  have hmem : (List.replicate L (0xff : U8)).length = L := List.length_replicate
  obtain ⟨t', ht0, htn, c1, c2⟩ : ∃ t', 0 < t' ∧ t' < n ∧ o ≤ i + t' ∧ i + t' ≤ o + 2 * t' := by
    by_cases c : o = i
    · exact ⟨1, by omega, by omega, by omega, by omega⟩
    by_cases c' : o < i
    · exact ⟨i - o, by omega, by omega, by omega, by omega⟩
    · exact ⟨o - i, by omega, by omega, by omega, by omega⟩
  obtain ⟨r, g1, g2⟩ := loop_wrong o i n t' hn htn ht0 c1 c2 t' 0 (L + 1) (List.replicate L 0xff) (by omega) (by omega)
    (by rw [hmem]; exact hi) (by rw [hmem]; exact ho) (fun h => absurd h (by omega))
  rw [encodeOv, hmem, g1] at hr
  have er := Res.ok_inj.mp hr
  rw [separate _ i n hn (by rw [hmem]; exact hi)] at hs
  have et := Res.ok_inj.mp hs
  have hl : (((List.replicate L (0xff : U8)).drop i).take n).length = n := by
    rw [List.length_take, List.length_drop, hmem]; omega
  have hw : (((List.replicate L (0xff : U8)).drop i).take n).getD t' 0 = 0xff := by
    rw [window_getD _ _ _ _ htn, List.getD_eq_getElem?_getD, List.getElem?_replicate, if_pos (by omega)]; rfl
  have val : ∀ a, o ≤ a → a < o + 2 * n → r.getD a 0 = t.getD (a - o) 0 := by
    intro a g3 g4
    have := splice_getD (List.replicate L (0xff : U8)) t o a (by rw [ht, hmem]; exact ho)
    rw [ht, if_pos (by omega)] at this
    rw [er, this]
  apply g2
  rw [val _ (by omega) (by omega), val _ (by omega) (by omega), ← et, text_getD _ _ (by omega), text_getD _ _ (by omega),
    if_pos (by omega), if_neg (by omega), show (o + 2 * t' - o) / 2 = t' by omega, show (o + 2 * t' + 1 - o) / 2 = t' by omega,
    hw]
  exact ⟨by decide, by decide⟩

/-! ### Decoding -/

/-- The byte that two characters give. -/
def pair (c d : U8) : U8 := BitVec.ofInt 8 (hexToAscii c d)

/-- The array after two iterations. -/
def putD (o i k : Nat) (mem : List U8) : List U8 :=
  mem.set (o + k) (pair (mem.getD (i + 2 * k) 0) (mem.getD (i + 2 * k + 1) 0))

theorem dloop_step (o i n k m : Nat) (buf : U8) (mem : List U8) (hk : k + (m + 1) = n) (hi : i + 2 * n ≤ mem.length)
    (ho : o + n ≤ mem.length) :
    ∃ buf', decodeLoopOv i (2 * (m + 1)) (2 * k) (o + k) buf mem =
      decodeLoopOv i (2 * m) (2 * (k + 1)) (o + (k + 1)) buf' (putD o i k mem) := by
  refine ⟨mem.getD (i + 2 * k) 0, ?_⟩
  rw [show 2 * (m + 1) = 2 * m + 1 + 1 by omega, decodeLoopOv, if_neg (by omega), rd_getD _ _ (by omega)]
  simp only [Res.ok_bind]
  rw [decodeLoopOv, if_pos (by omega), rd_getD _ _ (by omega)]
  simp only [Res.ok_bind]
  rw [Mem.wr, if_pos (by omega)]
  rfl

theorem dloop_right (o i n : Nat) (hs : o ≤ i + 1 ∨ i + 2 * n ≤ o) : ∀ (m k : Nat) (buf : U8) (mem : List U8),
    k + m = n → i + 2 * n ≤ mem.length → o + n ≤ mem.length →
    ∃ r, decodeLoopOv i (2 * m) (2 * k) (o + k) buf mem = .ok r ∧ r.length = mem.length ∧ ∀ a, r.getD a 0 =
      if o + k ≤ a ∧ a < o + n then pair (mem.getD (i + 2 * (a - o)) 0) (mem.getD (i + 2 * (a - o) + 1) 0)
      else mem.getD a 0 := by
  intro m
  induction m with
  | zero =>
    intro k buf mem hk hi ho
    refine ⟨mem, rfl, rfl, fun a => ?_⟩
    rw [if_neg (by omega)]
  | succ m ih =>
    intro k buf mem hk hi ho
    obtain ⟨buf', e⟩ := dloop_step o i n k m buf mem hk hi ho
    rw [e]
    have hl : (putD o i k mem).length = mem.length := by rw [putD, List.length_set]
    obtain ⟨r, h1, h2, h3⟩ := ih (k + 1) buf' (putD o i k mem) (by omega) (by omega) (by omega)
    refine ⟨r, h1, by rw [h2, hl], fun a => ?_⟩
    have hp : ∀ b, (putD o i k mem).getD b 0 = if b = o + k then pair (mem.getD (i + 2 * k) 0) (mem.getD (i + 2 * k + 1) 0)
        else mem.getD b 0 := fun b => by rw [putD, getD_set _ _ _ _ (by omega)]
    rw [h3 a, hp, hp, hp]
    by_cases c1 : o + (k + 1) ≤ a ∧ a < o + n
    · rw [if_pos c1, if_neg (by omega), if_neg (by omega), if_pos (by omega)]
    rw [if_neg c1]
    by_cases c2 : a = o + k
    · rw [if_pos c2, if_pos (by omega), show a - o = k by omega]
    · rw [if_neg c2, if_neg (by omega)]

/-- What decoding with separate buffers gives, as a list. -/
def pairs (text : List U8) (n : Nat) : List U8 := (List.range n).map fun k => pair (text.getD (2 * k) 0) (text.getD (2 * k + 1) 0)

theorem pairs_getD (text : List U8) (n k : Nat) (h : k < n) :
    (pairs text n).getD k 0 = pair (text.getD (2 * k) 0) (text.getD (2 * k + 1) 0) := by
  rw [pairs, List.getD_eq_getElem?_getD, List.getElem?_map, List.getElem?_range h]; rfl

theorem dseparate (mem : List U8) (i n : Nat) (hi : i + 2 * n ≤ mem.length) :
    decode (List.replicate n 0) ((mem.drop i).take (2 * n)) (2 * n : Nat) = .ok (pairs ((mem.drop i).take (2 * n)) n) := by
  have hl : ((mem.drop i).take (2 * n)).length = 2 * n := by rw [List.length_take, List.length_drop]; omega
  have hp : (pairs ((mem.drop i).take (2 * n)) n).length = n := by simp [pairs]
  have := Props.Hex.decodeLoop_pairs (pairs ((mem.drop i).take (2 * n)) n) [] ((mem.drop i).take (2 * n)) [] (List.replicate n 0)
    0 rfl rfl (by rw [hl, hp]) (by rw [hp, List.length_replicate]; exact Nat.le_refl n) (fun k hk => by
      have g := pairs_getD ((mem.drop i).take (2 * n)) n k (by omega)
      rw [List.getD_eq_getElem?_getD, List.getElem?_eq_getElem hk] at g
      exact g.symm)
  rw [hl, hp] at this
  rw [decode, Int.toNat_natCast]
  simpa using this

theorem decode_right (mem : List U8) (o i n : Nat) (hi : i + 2 * n ≤ mem.length) (ho : o + n ≤ mem.length)
    (hs : o ≤ i + 1 ∨ i + 2 * n ≤ o) : DecodeRight mem o i n := by
  have ht : (pairs ((mem.drop i).take (2 * n)) n).length = n := by simp [pairs]
  refine ⟨_, ht, dseparate mem i n hi, ?_⟩
  obtain ⟨r, h1, h2, h3⟩ := dloop_right o i n hs n 0 0 mem (by omega) hi ho
  rw [decodeOv, Int.toNat_natCast]
  rw [Nat.mul_zero, Nat.add_zero] at h1
  rw [h1]
  congr 1
  apply ext_getD
  · rw [h2, List.length_append, List.length_append, ht, List.length_take, List.length_drop]; omega
  · intro a _
    have := splice_getD mem _ o a (by rw [ht]; exact ho)
    rw [ht] at this
    rw [this, h3 a]
    by_cases c : o ≤ a ∧ a < o + n
    · rw [if_pos (by omega), if_pos c, pairs_getD _ _ _ (by omega), window_getD _ _ _ _ (by omega),
        window_getD _ _ _ _ (by omega), Nat.add_assoc]
    · rw [if_neg (by omega), if_neg c]

theorem dloop_keeps (o i n : Nat) : ∀ (m k : Nat) (buf : U8) (mem : List U8),
    k + m = n → i + 2 * n ≤ mem.length → o + n ≤ mem.length →
    ∃ r, decodeLoopOv i (2 * m) (2 * k) (o + k) buf mem = .ok r ∧ ∀ a, a < o + k → r.getD a 0 = mem.getD a 0 := by
  intro m
  induction m with
  | zero => intro k buf mem hk hi ho; exact ⟨mem, rfl, fun _ _ => rfl⟩
  | succ m ih =>
    intro k buf mem hk hi ho
    obtain ⟨buf', e⟩ := dloop_step o i n k m buf mem hk hi ho
    rw [e]
    have hl : (putD o i k mem).length = mem.length := by rw [putD, List.length_set]
    obtain ⟨r, h1, h3⟩ := ih (k + 1) buf' (putD o i k mem) (by omega) (by omega) (by omega)
    refine ⟨r, h1, fun a ha => ?_⟩
    rw [h3 a (by omega), putD, getD_set _ _ _ _ (by omega), if_neg (by omega)]

/-- The text `FF…`: the pair that is read from the first byte written is decoded to something else. -/
theorem dloop_wrong (o i n t : Nat) (ht : t < n) (ht0 : 0 < t) (h1 : i + 2 * t ≤ o) (h2 : o ≤ i + 2 * t + 1) :
    ∀ (d k : Nat) (buf : U8) (mem : List U8), k + d = t → i + 2 * n ≤ mem.length → o + n ≤ mem.length →
    (∀ a, i ≤ a → a < i + 2 * n → mem.getD a 0 = if o ≤ a ∧ a < o + k then 0xff else 0x46) →
    ∃ r, decodeLoopOv i (2 * (n - k)) (2 * k) (o + k) buf mem = .ok r ∧ r.getD (o + t) 0 ≠ 0xff := by
  intro d
  induction d with
  | zero =>
    intro k buf mem hk hi ho hq
    have e : k = t := by omega
    subst e
    obtain ⟨buf', e⟩ := dloop_step o i n k (n - (k + 1)) buf mem (by omega) hi ho
    rw [show n - k = n - (k + 1) + 1 by omega, e]
    have hl : (putD o i k mem).length = mem.length := by rw [putD, List.length_set]
    obtain ⟨r, g1, g2⟩ := dloop_keeps o i n (n - (k + 1)) (k + 1) buf' (putD o i k mem) (by omega) (by omega) (by omega)
    refine ⟨r, g1, ?_⟩
    rw [g2 _ (by omega), putD, getD_set _ _ _ _ (by omega), if_pos rfl, hq _ (by omega) (by omega), hq _ (by omega) (by omega)]
    by_cases c : o = i + 2 * k
    · rw [if_pos (by omega)]
      split <;> decide
    · rw [if_neg (by omega), if_pos (by omega)]
      decide
  | succ d ih =>
    intro k buf mem hk hi ho hq
    obtain ⟨buf', e⟩ := dloop_step o i n k (n - (k + 1)) buf mem (by omega) hi ho
    rw [show n - k = n - (k + 1) + 1 by omega, e]
    have hl : (putD o i k mem).length = mem.length := by rw [putD, List.length_set]
    refine ih (k + 1) buf' (putD o i k mem) (by omega) (by omega) (by omega) (fun a g1 g2 => ?_)
    rw [putD, getD_set _ _ _ _ (by omega), hq _ (by omega) (by omega), hq _ (by omega) (by omega), hq a g1 g2,
      if_neg (c := o ≤ i + 2 * k ∧ _) (by omega), if_neg (c := o ≤ i + 2 * k + 1 ∧ _) (by omega)]
    by_cases c : a = o + k
    · rw [if_pos c, if_pos (by omega)]; decide
    · rw [if_neg c]
      by_cases c' : o ≤ a ∧ a < o + k
      · rw [if_pos c', if_pos (by omega)]
      · rw [if_neg c', if_neg (by omega)]

theorem decode_wrong (o i n L : Nat) (hi : i + 2 * n ≤ L) (ho : o + n ≤ L) (h3 : i + 2 ≤ o) (h4 : o < i + 2 * n) :
    ¬ DecodeRight (List.replicate L 0x46) o i n := by
  rintro ⟨b, hb, hs, hr⟩
  have hmem : (List.replicate L (0x46 : U8)).length = L := List.length_replicate
  have hval : ∀ a, a < L → (List.replicate L (0x46 : U8)).getD a 0 = 0x46 := fun a ha => by
    rw [List.getD_eq_getElem?_getD, List.getElem?_replicate, if_pos ha]; rfl
  obtain ⟨r, g1, g2⟩ := dloop_wrong o i n ((o - i) / 2) (by omega) (by omega) (by omega) (by omega) ((o - i) / 2) 0 0
    (List.replicate L 0x46) (by omega) (by omega) (by omega) (fun a _ g => by
      rw [hval a (by omega), if_neg (by omega)])
  rw [decodeOv, Int.toNat_natCast] at hr
  rw [Nat.mul_zero, Nat.add_zero, Nat.sub_zero, hr] at g1
  have er := Res.ok_inj.mp g1
  rw [dseparate _ i n (by omega)] at hs
  have eb := Res.ok_inj.mp hs
  have := splice_getD (List.replicate L (0x46 : U8)) b o (o + (o - i) / 2) (by omega)
  rw [hb, er, if_pos (by omega), show o + (o - i) / 2 - o = (o - i) / 2 by omega, ← eb, pairs_getD _ _ _ (by omega),
    window_getD _ _ _ _ (by omega), window_getD _ _ _ _ (by omega), hval _ (by omega), hval _ (by omega)] at this
  exact g2 (this.trans (by decide))

/-! ### The property -/

/-- C136, encoding, the part that holds, and exactly when it holds: for all contents of the array the result is right if and
only if the distance of the two pointers is at least the number of bytes (or there is at most one byte).  Missing from the full
statement: other overlaps, among them encoding in place (`hex_encode_in_place_refuted`). -/
theorem hex_encode_overlap_partial (o i n L : Nat) (hn : n < 2 ^ 30) (hi : i + n ≤ L) (ho : o + (2 * n + 1) ≤ L) :
    (∀ mem : List U8, mem.length = L → EncodeRight mem o i n) ↔ (n ≤ 1 ∨ i + n ≤ o ∨ o + n ≤ i) := by
  constructor
  · intro h
    by_cases c : n ≤ 1 ∨ i + n ≤ o ∨ o + n ≤ i
    · exact c
    · exact absurd (h (List.replicate L 0xff) List.length_replicate) (encode_wrong o i n L hn hi ho (by omega) (by omega) (by omega))
  · intro h mem hm
    exact encode_right mem o i n hn (by omega) (by omega) h

example : 3 + 2 ≤ 8 ∧ 1 + (2 * 2 + 1) ≤ 8 ∧ ((2 : Nat) ≤ 1 ∨ 3 + 2 ≤ 1 ∨ 1 + 2 ≤ 3) ∧
    encodeOv [9, 9, 9, 0xAB, 0xCD, 9, 9, 9] 1 3 2 = .ok [9, 0x41, 0x42, 0x43, 0x44, 0, 9, 9] := by decide

/-- C136, encoding, fails in general: two or more bytes are not encoded in place, since the text of the first byte covers
the second. -/
theorem hex_encode_in_place_refuted : ∃ mem : List U8, ∃ o n, o + (2 * n + 1) ≤ mem.length ∧ ¬ EncodeRight mem o o n :=
  ⟨List.replicate 5 0xff, 0, 2, by decide, encode_wrong 0 0 2 5 (by decide) (by decide) (by decide) (by decide) (by decide) (by decide)⟩

/-- C136, decoding: for all contents of the array the result is right if and only if the output begins at most one byte after
the text, or behind the text.  In particular text is decoded in place. -/
theorem hex_decode_overlap (o i n L : Nat) (hi : i + 2 * n ≤ L) (ho : o + n ≤ L) :
    (∀ mem : List U8, mem.length = L → DecodeRight mem o i n) ↔ (o ≤ i + 1 ∨ i + 2 * n ≤ o) := by
  constructor
  · intro h
    by_cases c : o ≤ i + 1 ∨ i + 2 * n ≤ o
    · exact c
    · exact absurd (h (List.replicate L 0x46) List.length_replicate) (decode_wrong o i n L hi ho (by omega) (by omega))
  · intro h mem hm
    exact decode_right mem o i n (by omega) (by omega) h

example : 1 + 2 * 2 ≤ 6 ∧ 1 + 2 ≤ 6 ∧ ((1 : Nat) ≤ 1 + 1 ∨ 1 + 2 * 2 ≤ 1) ∧
    decodeOv [9, 0x41, 0x42, 0x43, 0x44, 9] 1 1 4 = .ok [9, 0xAB, 0xCD, 0x43, 0x44, 9] := by decide

end CT.Props.HexOverlap
