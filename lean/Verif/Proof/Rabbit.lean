import Verif.Model.Rabbit
import Verif.Spec.Rabbit
import Verif.Basic.Lockstep

/-! # Rabbit: the model refines RFC 4503 while no counter sum is exactly 2^32 -/

namespace CT.Rabbit
open CT.Spec

theorem g_eq (u v : U32) : g u v = Spec.Rabbit.g u v := by
  have hs : (u + v).toNat = (u.toNat + v.toNat) % 2 ^ 32 := BitVec.toNat_add u v
  have hlt : (u + v).toNat < 2 ^ 32 := (u + v).isLt
  simp only [g, Spec.Rabbit.g, ← hs]
  generalize (u + v) = s at *
  have hsq : s.toNat * s.toNat < 2 ^ 64 :=
    Nat.lt_of_lt_of_le (Nat.mul_lt_mul'' hlt hlt) (by decide)
  have hh : (s.setWidth 64 * s.setWidth 64).toNat = s.toNat * s.toNat := by
    rw [BitVec.toNat_mul, BitVec.toNat_setWidth, Nat.mod_eq_of_lt (show s.toNat < 2 ^ 64 by omega),
      Nat.mod_eq_of_lt hsq]
  congr 1
  · apply BitVec.eq_of_toNat_eq
    rw [BitVec.toNat_setWidth, BitVec.toNat_and, hh, BitVec.toNat_ofNat, Nat.pow_two]
    rw [show BitVec.toNat (0xffffffff : U64) = 2 ^ 32 - 1 from by decide, Nat.and_two_pow_sub_one_eq_mod]
  · apply BitVec.eq_of_toNat_eq
    rw [BitVec.toNat_setWidth, BitVec.toNat_and, BitVec.toNat_ushiftRight, hh, BitVec.toNat_ofNat, Nat.pow_two]
    rw [show BitVec.toNat (0xffffffff : U64) = 2 ^ 32 - 1 from by decide, Nat.and_two_pow_sub_one_eq_mod,
      Nat.shiftRight_eq_div_pow, Nat.mod_mod]

/-- The model state carries the specification state. -/
structure R (cs : State) (s : Rabbit.St) : Prop where
  X : cs.X = s.X
  C : cs.C = s.C
  b : cs.carry.toNat = s.b
  b1 : s.b ≤ 1

theorem counterStep_R {cs : State} {s : Rabbit.St} (h : R cs s) (j : Fin 8)
    (hj : Spec.Rabbit.temp s j ≠ 2 ^ 32) : R (counterStep cs j) (Spec.Rabbit.counterStep s j) := by
  have hA : Spec.Rabbit.A = CT.Rabbit.A := rfl
  obtain ⟨cMX, cMC, cX, cC, cc⟩ := cs
  obtain ⟨sX, sC, sb⟩ := s
  obtain ⟨hX, hC, hcb, hb1⟩ := h
  simp only at hX hC hcb hb1
  subst hX hC hcb
  have e : (cC[j].setWidth 64 + A[j].setWidth 64 + cc.setWidth 64 : U64).toNat =
      Spec.Rabbit.temp ⟨cX, cC, cc.toNat⟩ j := by
    simp only [Spec.Rabbit.temp, hA]
    have h1 := cC[j].isLt
    have h2 := A[j].isLt
    have h3 := cc.isLt
    rw [BitVec.toNat_add, BitVec.toNat_add, BitVec.toNat_setWidth, BitVec.toNat_setWidth,
      BitVec.toNat_setWidth]
    omega
  have hb : Spec.Rabbit.temp ⟨cX, cC, cc.toNat⟩ j < 2 ^ 33 := by
    simp only [Spec.Rabbit.temp]
    have h1 := cC[j].isLt
    have h2 := (Spec.Rabbit.A[j]).isLt
    have h3 := hb1
    omega
  generalize hT : Spec.Rabbit.temp ⟨cX, cC, cc.toNat⟩ j = T at *
  refine ⟨rfl, ?_, ?_, ?_⟩
  · simp only [counterStep, Spec.Rabbit.counterStep, hT]
    congr 1
    apply BitVec.eq_of_toNat_eq
    rw [BitVec.toNat_setWidth, BitVec.toNat_umod, e, BitVec.toNat_ofNat]
    exact Nat.mod_mod _ _
  · simp only [counterStep, Spec.Rabbit.counterStep, hT]
    by_cases hc : 0x100000000#64 < cC[j].setWidth 64 + A[j].setWidth 64 + cc.setWidth 64
    · rw [if_pos hc]
      rw [BitVec.lt_def, e] at hc
      have : 2 ^ 32 < T := hc
      show 1 = _
      omega
    · rw [if_neg hc]
      rw [BitVec.lt_def, e] at hc
      have : ¬ 2 ^ 32 < T := hc
      show 0 = _
      omega
  · simp only [Spec.Rabbit.counterStep, hT]; omega

theorem counterList_R (js : List (Fin 8)) {cs : State} {s : Rabbit.St} (h : R cs s)
    (hh : Spec.Rabbit.hit js s = false) : R (js.foldl counterStep cs) (js.foldl Spec.Rabbit.counterStep s) := by
  induction js generalizing cs s with
  | nil => exact h
  | cons j js ih =>
    simp only [Spec.Rabbit.hit, Bool.or_eq_false_iff, beq_eq_false_iff_ne] at hh
    exact ih (counterStep_R h j hh.1) hh.2

theorem counter_R {cs : State} {s : Rabbit.St} (h : R cs s)
    (hh : Spec.Rabbit.hit [0, 1, 2, 3, 4, 5, 6, 7] s = false) : R (counter cs) (Spec.Rabbit.counter s) :=
  counterList_R _ h hh

theorem rotl16 (x : U32) : rotl32 x 16 = x.rotateLeft 16 := rotl32_eq x (by decide) (by decide)
theorem rotl8 (x : U32) : rotl32 x 8 = x.rotateLeft 8 := rotl32_eq x (by decide) (by decide)

theorem nextState_R {cs : State} {s : Rabbit.St} (h : R cs s) : R (nextState cs) (Spec.Rabbit.next s) := by
  refine ⟨?_, h.C, h.b, h.b1⟩
  simp only [nextState, Spec.Rabbit.next, rotl16, rotl8, g_eq, h.X, h.C]

theorem update_R {cs : State} {s : Rabbit.St} (h : R cs s)
    (hh : Spec.Rabbit.hit [0, 1, 2, 3, 4, 5, 6, 7] s = false) : R (update cs) (Spec.Rabbit.iter s) :=
  nextState_R (counter_R h hh)

theorem clean_succ {n : Nat} {s : Rabbit.St} (h : Spec.Rabbit.clean (n + 1) s = true) :
    Spec.Rabbit.hit [0, 1, 2, 3, 4, 5, 6, 7] s = false ∧ Spec.Rabbit.clean n (Spec.Rabbit.iter s) = true := by
  rw [Spec.Rabbit.clean, Bool.and_eq_true, Bool.not_eq_true'] at h
  exact h

theorem clean_add {m n : Nat} {s : Rabbit.St} (h : Spec.Rabbit.clean (m + n) s = true) :
    Spec.Rabbit.clean m s = true ∧ Spec.Rabbit.clean n (Spec.Rabbit.iters m s) = true := by
  induction m generalizing s with
  | zero => rw [Nat.zero_add] at h; exact ⟨rfl, h⟩
  | succ m ih =>
    rw [Nat.add_right_comm] at h
    obtain ⟨h1, h2⟩ := clean_succ h
    obtain ⟨h3, h4⟩ := ih h2
    refine ⟨?_, h4⟩
    rw [Spec.Rabbit.clean, h1, h3]; rfl

theorem update4_R {cs : State} {s : Rabbit.St} (h : R cs s) (hh : Spec.Rabbit.clean 4 s = true) :
    R (update4 cs) (Spec.Rabbit.iters 4 s) := by
  obtain ⟨a0, b0⟩ := clean_succ hh
  obtain ⟨a1, b1⟩ := clean_succ b0
  obtain ⟨a2, b2⟩ := clean_succ b1
  obtain ⟨a3, _⟩ := clean_succ b2
  exact update_R (update_R (update_R (update_R h a0) a1) a2) a3

/-! ### Bytes and integers -/

theorem leNat_div (bs : List U8) (k : Nat) : Spec.Rabbit.leNat bs / 256 ^ k = Spec.Rabbit.leNat (bs.drop k) := by
  induction k generalizing bs with
  | zero => simp
  | succ k ih =>
    cases bs with
    | nil => simp [Spec.Rabbit.leNat]
    | cons b bs =>
      rw [List.drop_succ_cons, ← ih, Spec.Rabbit.leNat, Nat.pow_succ, Nat.mul_comm (256 ^ k),
        ← Nat.div_div_eq_div_mul]
      have := b.isLt
      congr 1; omega

theorem leNat_take2 (bs : List U8) :
    Spec.Rabbit.leNat bs % 2 ^ 16 = (bs.getD 0 0).toNat + 256 * (bs.getD 1 0).toNat := by
  match bs with
  | [] => rfl
  | [a] => have := a.isLt; simp [Spec.Rabbit.leNat]; omega
  | a :: b :: bs =>
    have h1 := a.isLt
    have h2 := b.isLt
    simp [Spec.Rabbit.leNat]; omega

theorem bits16 (bs : List U8) (i : Nat) : Spec.Rabbit.bits (Spec.Rabbit.leNat bs) (16 * i) 16 =
    (bs.getD (2 * i) 0).toNat + 256 * (bs.getD (2 * i + 1) 0).toNat := by
  have e : (2 : Nat) ^ (16 * i) = 256 ^ (2 * i) := by
    rw [show (256 : Nat) = 2 ^ 8 from rfl, ← Nat.pow_mul]; congr 1; omega
  rw [Spec.Rabbit.bits, e, leNat_div, leNat_take2]
  simp [List.getD_eq_getElem?_getD]

theorem u16_toNat (p : List U8) (i : Nat) :
    (u16 p i).toNat = Spec.Rabbit.bits (Spec.Rabbit.leNat p) (16 * i) 16 := by
  rw [bits16, u16]
  generalize p.getD (2 * i) 0 = a
  generalize p.getD (2 * i + 1) 0 = b
  have ha := a.isLt
  have hb := b.isLt
  rw [BitVec.toNat_or, BitVec.toNat_shiftLeft, BitVec.toNat_setWidth, BitVec.toNat_setWidth,
    Nat.mod_eq_of_lt (show a.toNat < 2 ^ 32 by omega), Nat.mod_eq_of_lt (show b.toNat < 2 ^ 32 by omega),
    Nat.shiftLeft_eq, Nat.mod_eq_of_lt (show b.toNat * 2 ^ 8 < 2 ^ 32 by omega), Nat.or_comm,
    Nat.mul_comm b.toNat, ← Nat.two_pow_add_eq_or_of_lt ha]
  omega

theorem bits_lt (n lo w : Nat) : Spec.Rabbit.bits n lo w < 2 ^ w := Nat.mod_lt _ (Nat.two_pow_pos w)

theorem cat16_eq (p : List U8) (i j : Nat) : (u16 p i <<< 16 ||| u16 p j) =
    Spec.Rabbit.cat16 (Spec.Rabbit.bits (Spec.Rabbit.leNat p) (16 * i) 16)
      (Spec.Rabbit.bits (Spec.Rabbit.leNat p) (16 * j) 16) := by
  have hi := bits_lt (Spec.Rabbit.leNat p) (16 * i) 16
  have hj := bits_lt (Spec.Rabbit.leNat p) (16 * j) 16
  apply BitVec.eq_of_toNat_eq
  rw [Spec.Rabbit.cat16, BitVec.toNat_ofNat, BitVec.toNat_or, BitVec.toNat_shiftLeft, u16_toNat, u16_toNat,
    Nat.shiftLeft_eq]
  generalize Spec.Rabbit.bits (Spec.Rabbit.leNat p) (16 * i) 16 = x at *
  generalize Spec.Rabbit.bits (Spec.Rabbit.leNat p) (16 * j) 16 = y at *
  rw [Nat.mod_eq_of_lt (show x * 2 ^ 16 < 2 ^ 32 by omega), Nat.mod_eq_of_lt (by omega), Nat.mul_comm x,
    ← Nat.two_pow_add_eq_or_of_lt hj]

/-- A little-endian word is two 16 bit pieces. -/
theorem word_eq (p : List U8) (i : Nat) :
    le32 (p.getD (2 * i) 0) (p.getD (2 * i + 1) 0) (p.getD (2 * i + 2) 0) (p.getD (2 * i + 3) 0) =
    BitVec.ofNat 32 (Spec.Rabbit.bits (Spec.Rabbit.leNat p) (16 * i) 32) := by
  have h1 := bits16 p i
  have h2 := bits16 p (i + 1)
  have hs : Spec.Rabbit.bits (Spec.Rabbit.leNat p) (16 * i) 32 =
      Spec.Rabbit.bits (Spec.Rabbit.leNat p) (16 * i) 16 +
        2 ^ 16 * Spec.Rabbit.bits (Spec.Rabbit.leNat p) (16 * (i + 1)) 16 := by
    simp only [Spec.Rabbit.bits]
    rw [show 16 * (i + 1) = 16 * i + 16 from by omega, Nat.pow_add, ← Nat.div_div_eq_div_mul]
    omega
  rw [hs, h1, h2, show 2 * (i + 1) = 2 * i + 2 from by omega]
  generalize p.getD (2 * i) 0 = a
  generalize p.getD (2 * i + 1) 0 = b
  generalize p.getD (2 * i + 2) 0 = c
  generalize p.getD (2 * i + 2 + 1) 0 = d
  have ha := a.isLt
  have hb := b.isLt
  have hc := c.isLt
  have hd := d.isLt
  apply BitVec.eq_of_toNat_eq
  rw [le32_toNat, BitVec.toNat_ofNat, Nat.mod_eq_of_lt (by omega)]
  omega

/-! ### Setup -/

theorem loadKeyExpand_R (key : List U8) : R (loadKeyExpand key) (Spec.Rabbit.keyExpand (Spec.Rabbit.leNat key)) := by
  refine ⟨?_, ?_, rfl, Nat.zero_le _⟩ <;>
  · simp only [loadKeyExpand, Spec.Rabbit.keyExpand]
    congr 1
    funext j
    have hj : j.val % 8 = j.val := Nat.mod_eq_of_lt j.isLt
    rcases Nat.mod_two_eq_zero_or_one j.val with h | h <;> simp [h, cat16_eq, hj]

theorem fin_R {cs : State} {s : Rabbit.St} (h : R cs s) :
    R { cs with C := Vector.ofFn fun j : Fin 8 => cs.C[j] ^^^ cs.X[(j.val + 4) % 8]'(by omega)
                MC := Vector.ofFn fun j : Fin 8 => cs.C[j] ^^^ cs.X[(j.val + 4) % 8]'(by omega)
                MX := cs.X }
      { s with C := Vector.ofFn fun j : Fin 8 => s.C[j] ^^^ s.X[(j.val + 4) % 8]'(by omega) } := by
  refine ⟨h.X, ?_, h.b, h.b1⟩
  simp only [h.X, h.C]

theorem loadKey_R {key : List U8}
    (h : Spec.Rabbit.clean 4 (Spec.Rabbit.keyExpand (Spec.Rabbit.leNat key)) = true) :
    R (loadKey key) (Spec.Rabbit.keySetup (Spec.Rabbit.leNat key)) ∧
      (loadKey key).MX = (loadKey key).X ∧ (loadKey key).MC = (loadKey key).C := by
  have hr := update4_R (loadKeyExpand_R key) h
  rw [loadKey, Spec.Rabbit.keySetup]
  exact ⟨fin_R hr, rfl, rfl⟩

theorem mix_vec (x0 x1 x2 x3 : U32) (C : Vector U32 8) :
    #v[C[0] ^^^ x0, C[1] ^^^ x1, C[2] ^^^ x2, C[3] ^^^ x3, C[4] ^^^ x0, C[5] ^^^ x1, C[6] ^^^ x2, C[7] ^^^ x3] =
      Vector.ofFn fun j : Fin 8 => C[j] ^^^ #v[x0, x1, x2, x3][j.val % 4]'(by omega) := by
  apply Vector.ext
  intro i hi
  rw [Vector.getElem_ofFn]
  match i, hi with
  | 0, _ => rfl
  | 1, _ => rfl
  | 2, _ => rfl
  | 3, _ => rfl
  | 4, _ => simp; rfl
  | 5, _ => simp; rfl
  | 6, _ => simp; rfl
  | 7, _ => simp; rfl

theorem ivMix_R {cs : State} {s : Rabbit.St} (h : R cs s) (hX : cs.MX = cs.X) (hC : cs.MC = cs.C)
    (iv : List U8) : R (ivMix cs iv) (Spec.Rabbit.ivMix (Spec.Rabbit.leNat iv) s) := by
  refine ⟨?_, ?_, by simp only [ivMix, Spec.Rabbit.ivMix]; exact h.b, by simp only [Spec.Rabbit.ivMix]; exact h.b1⟩
  · simp only [ivMix, Spec.Rabbit.ivMix, hX, h.X]
  · have w0 := word_eq iv 0
    have w1 := word_eq iv 2
    simp only [ivMix, Spec.Rabbit.ivMix, hC, h.C]
    simp only [Nat.reduceMul, Nat.reduceAdd, Nat.mul_zero, Nat.zero_add] at w0 w1
    simp only [w0, w1, cat16_eq, Nat.reduceMul, Nat.mul_zero]
    exact mix_vec _ _ _ _ _

theorem loadIv_R {key iv : List U8} {m : Nat} (h : Spec.Rabbit.cleanRun key iv m = true) :
    R (loadIv (loadKey key) iv) (Spec.Rabbit.ivSetup (Spec.Rabbit.leNat iv) (Spec.Rabbit.keySetup (Spec.Rabbit.leNat key))) ∧
      Spec.Rabbit.clean m (Spec.Rabbit.ivSetup (Spec.Rabbit.leNat iv) (Spec.Rabbit.keySetup (Spec.Rabbit.leNat key))) = true := by
  rw [Spec.Rabbit.cleanRun, Bool.and_eq_true] at h
  obtain ⟨h1, h2, h3⟩ := loadKey_R h.1
  obtain ⟨c1, c2⟩ := clean_add h.2
  exact ⟨update4_R (ivMix_R h1 h2 h3 iv) c1, c2⟩

/-! ### Extraction -/

theorem lo_toNat (x : U32) : (lo x).toNat = Spec.Rabbit.lo x := by
  rw [lo, Spec.Rabbit.lo, Spec.Rabbit.bits, BitVec.toNat_and,
    show BitVec.toNat (0xffff : U32) = 2 ^ 16 - 1 from by decide, Nat.and_two_pow_sub_one_eq_mod]
  simp

theorem hi_toNat (x : U32) : (hi x).toNat = Spec.Rabbit.hi x := by
  rw [hi, Spec.Rabbit.hi, Spec.Rabbit.bits, BitVec.toNat_and, BitVec.toNat_ushiftRight,
    show BitVec.toNat (0xffff : U32) = 2 ^ 16 - 1 from by decide, Nat.and_two_pow_sub_one_eq_mod,
    Nat.shiftRight_eq_div_pow]

/-- Two 16 bit stores are the four bytes of the word. -/
theorem halves (a b : U32) (p q : Nat) (ha : a.toNat = p) (hb : b.toNat = q) (hp : p < 2 ^ 16) (hq : q < 2 ^ 16) :
    bytesLE32 (a ||| (b <<< 16)) =
      [BitVec.ofNat 8 p, BitVec.ofNat 8 (p / 256), BitVec.ofNat 8 q, BitVec.ofNat 8 (q / 256)] := by
  have hw : (a ||| (b <<< 16)).toNat = p + 2 ^ 16 * q := by
    rw [BitVec.toNat_or, BitVec.toNat_shiftLeft, ha, hb, Nat.shiftLeft_eq,
      Nat.mod_eq_of_lt (show q * 2 ^ 16 < 2 ^ 32 by omega), Nat.or_comm, Nat.mul_comm q,
      ← Nat.two_pow_add_eq_or_of_lt hp]; omega
  have hb : ∀ n, byteN (a ||| (b <<< 16)) n = BitVec.ofNat 8 ((p + 2 ^ 16 * q) / 2 ^ (8 * n)) := by
    intro n
    apply BitVec.eq_of_toNat_eq
    rw [byteN, BitVec.extractLsb'_toNat, hw, BitVec.toNat_ofNat, Nat.shiftRight_eq_div_pow]
  simp only [bytesLE32, hb, List.cons.injEq, and_true]
  have key : ∀ m n : Nat, m % 256 = n % 256 → BitVec.ofNat 8 m = BitVec.ofNat 8 n := by
    intro m n h; apply BitVec.eq_of_toNat_eq; simpa using h
  refine ⟨key _ _ ?_, key _ _ ?_, key _ _ ?_, key _ _ ?_⟩ <;> omega

theorem piece_eq (x y : U32) {p q : Nat} (hx : x.toNat = p) (hy : y.toNat = q) (hp : p < 2 ^ 16) (hq : q < 2 ^ 16) :
    (x ^^^ y).toNat = p ^^^ q ∧ p ^^^ q < 2 ^ 16 :=
  ⟨by rw [BitVec.toNat_xor, hx, hy], Nat.xor_lt_two_pow hp hq⟩

theorem slo (x : U32) : Spec.Rabbit.lo x < 2 ^ 16 := bits_lt _ _ _
theorem shi (x : U32) : Spec.Rabbit.hi x < 2 ^ 16 := bits_lt _ _ _

theorem lohi (x y : U32) : (lo x ^^^ hi y).toNat = Spec.Rabbit.lo x ^^^ Spec.Rabbit.hi y ∧
    Spec.Rabbit.lo x ^^^ Spec.Rabbit.hi y < 2 ^ 16 := piece_eq _ _ (lo_toNat x) (hi_toNat y) (slo x) (shi y)

theorem hilo (x y : U32) : (hi x ^^^ lo y).toNat = Spec.Rabbit.hi x ^^^ Spec.Rabbit.lo y ∧
    Spec.Rabbit.hi x ^^^ Spec.Rabbit.lo y < 2 ^ 16 := piece_eq _ _ (hi_toNat x) (lo_toNat y) (shi x) (slo y)

theorem extract_R {cs : State} {s : Rabbit.St} (h : R cs s)
    (hh : Spec.Rabbit.hit [0, 1, 2, 3, 4, 5, 6, 7] s = false) :
    R (extract cs).1 (Spec.Rabbit.iter s) ∧ (extract cs).2.bytes = Spec.Rabbit.out (Spec.Rabbit.iter s) := by
  have hr := update_R h hh
  refine ⟨hr, ?_⟩
  have hw : ∀ (a b c d : U32), bytesLE32 ((lo a ^^^ hi b) ||| ((hi c ^^^ lo d) <<< 16)) =
      [BitVec.ofNat 8 (Spec.Rabbit.lo a ^^^ Spec.Rabbit.hi b), BitVec.ofNat 8 ((Spec.Rabbit.lo a ^^^ Spec.Rabbit.hi b) / 256),
       BitVec.ofNat 8 (Spec.Rabbit.hi c ^^^ Spec.Rabbit.lo d), BitVec.ofNat 8 ((Spec.Rabbit.hi c ^^^ Spec.Rabbit.lo d) / 256)] := by
    intro a b c d
    exact halves _ _ _ _ (lohi a b).1 (hilo c d).1 (lohi a b).2 (hilo c d).2
  simp only [extract, Quad.bytes, Quad.toList, wordsToBytesLE_cons, wordsToBytesLE_nil, hw, hr.X,
    Spec.Rabbit.out, Spec.Rabbit.pieces, List.flatMap_cons, List.flatMap_nil, List.cons_append, List.nil_append]

theorem blkBytes_eq (m : Nat) {cs : State} {s : Rabbit.St} (h : R cs s) (hh : Spec.Rabbit.clean m s = true) :
    blkBytes extract m cs = Spec.Rabbit.blocks m s := by
  induction m generalizing cs s with
  | zero => rfl
  | succ m ih =>
    obtain ⟨h1, h2⟩ := clean_succ hh
    obtain ⟨h3, h4⟩ := extract_R h h1
    rw [blkBytes, Spec.Rabbit.blocks, h4, ih h3 h2]

/-! ### Packets -/

/-- Keystream of a packet. -/
def pktKs (cs : State) (n : Nat) : List U8 := (blkBytes extract ((n + 15) / 16) cs).take n

/-- State after a packet. -/
def pktNext (cs : State) (n : Nat) : State := blkState extract ((n + 15) / 16) cs

theorem pktKs_length (cs : State) (n : Nat) : (pktKs cs n).length = n := by
  rw [pktKs, List.length_take, blkBytes_length]; omega

theorem processPacket_eq (cs : State) {io : Io} {n : Nat} (hf : io.Fits n) :
    processPacket cs io n = .ok (pktNext cs n, io.xored (pktKs cs n)) := by
  have hb := Io.blockLoop_xored extract (io := io) (n + 1) n 0 cs [] rfl (by omega) (hf.mono (by omega))
  rw [Io.xored_nil] at hb
  simp only [processPacket, hb, Res.ok_bind, List.nil_append]
  have e : (n + 15) / 16 = if n % 16 > 0 then n / 16 + 1 else n / 16 := by split <;> omega
  split
  · rename_i h0
    rw [if_pos h0] at e
    rw [Io.byteLoop_xored _ _ _ _ _ (by rw [blkBytes_length]; omega)
      (by rw [Quad.toList_length]; omega) (hf.mono (by omega))]
    simp only [Res.ok_bind, Res.pure_eq, pktNext, pktKs, e, blkState_succ, Res.ok_inj, Prod.mk.injEq, true_and]
    congr 1
    rw [blkBytes_add, List.take_append, blkBytes_length,
      List.take_of_length_le (l := blkBytes extract (n / 16) cs) (by rw [blkBytes_length]; omega)]
    congr 1
    have e2 : n - 16 * (n / 16) = n % 16 := by omega
    simp only [blkBytes, List.append_nil, List.drop_zero, Quad.bytes, e2]
  · rename_i h0
    rw [if_neg h0] at e
    simp only [pktNext, pktKs, e, Res.pure_eq, Res.ok_inj, Prod.mk.injEq, true_and]
    congr 1
    rw [List.take_of_length_le (by rw [blkBytes_length]; omega)]

theorem isStream : IsStream processPacket (fun _ => True) (fun _ => True) pktKs pktNext :=
  fun s n _ _ => ⟨trivial, pktKs_length s n, fun _ hf => processPacket_eq s hf⟩

end CT.Rabbit
