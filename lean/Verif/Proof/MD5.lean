import Verif.Spec.MD5
import Verif.Model.MD5

/-!
# MD5: the context after any sequence of updates represents the bytes given so far
-/

namespace CT.MD5

/-! ### The transformation -/

/-- The register names of the code, seen from the specification's step `t`. -/
def view (t : Nat) (r : Regs) : Spec.MD5.Regs :=
  match t % 4 with
  | 0 => ⟨r.a, r.b, r.c, r.d⟩
  | 1 => ⟨r.d, r.a, r.b, r.c⟩
  | 2 => ⟨r.c, r.d, r.a, r.b⟩
  | _ => ⟨r.b, r.c, r.d, r.a⟩

/-- The line that RFC 1321 prescribes for step `t`. -/
def lineOf (t : Nat) : Line :=
  { mac := match t / 16 with | 0 => .FF | 1 => .GG | 2 => .HH | _ => .II
    reg := match t % 4 with | 0 => .a | 1 => .d | 2 => .c | _ => .b
    k := Spec.MD5.idx t, s := Spec.MD5.shift t, ac := Spec.MD5.T (t + 1) }

set_option maxRecDepth 100000 in
theorem lines_eq : lines = (List.range 64).map lineOf := by decide +kernel

theorem fn_eq (t : Nat) : (lineOf t).mac.fn = Spec.MD5.fn t := by
  simp only [lineOf, Spec.MD5.fn]
  generalize t / 16 = q
  match q with
  | 0 => rfl
  | 1 => rfl
  | 2 => rfl
  | _ + 3 => rfl

theorem shift_all : ∀ t : Fin 64, 0 < Spec.MD5.shift t ∧ Spec.MD5.shift t < 32 := by decide +kernel

theorem macVal_eq (t : Nat) (ht : t < 64) (a b c d x : U32) :
    macVal (lineOf t).mac a b c d x (Spec.MD5.shift t) (Spec.MD5.T (t + 1)) =
      b + (a + Spec.MD5.fn t b c d + x + Spec.MD5.T (t + 1)).rotateLeft (Spec.MD5.shift t) := by
  have hs := shift_all ⟨t, ht⟩
  rw [macVal, fn_eq, rotl32_eq _ hs.1 hs.2, BitVec.add_comm _ b, ← BitVec.add_assoc, ← BitVec.add_assoc]

theorem exec_view (X : Nat → U32) (r : Regs) (t : Nat) (ht : t < 64) :
    view (t + 1) ((lineOf t).exec X r) = Spec.MD5.step X (view t r) t := by
  have h4 : t % 4 = 0 ∨ t % 4 = 1 ∨ t % 4 = 2 ∨ t % 4 = 3 := by omega
  have hr : (lineOf t).reg = match t % 4 with | 0 => .a | 1 => .d | 2 => .c | _ => .b := rfl
  have hk : (lineOf t).k = Spec.MD5.idx t := rfl
  have hs : (lineOf t).s = Spec.MD5.shift t := rfl
  have ha : (lineOf t).ac = Spec.MD5.T (t + 1) := rfl
  rcases h4 with h | h | h | h
  · have h' : (t + 1) % 4 = 1 := by omega
    simp only [Line.exec, hr, h, view, h', Spec.MD5.step, hk, hs, ha, macVal_eq t ht]
  · have h' : (t + 1) % 4 = 2 := by omega
    simp only [Line.exec, hr, h, view, h', Spec.MD5.step, hk, hs, ha, macVal_eq t ht]
  · have h' : (t + 1) % 4 = 3 := by omega
    simp only [Line.exec, hr, h, view, h', Spec.MD5.step, hk, hs, ha, macVal_eq t ht]
  · have h' : (t + 1) % 4 = 0 := by omega
    simp only [Line.exec, hr, h, view, h', Spec.MD5.step, hk, hs, ha, macVal_eq t ht]

theorem fold_view (X : Nat → U32) (r : Regs) (n : Nat) (hn : n ≤ 64) :
    view n ((List.range n).foldl (fun r t => (lineOf t).exec X r) r) =
      (List.range n).foldl (Spec.MD5.step X) (view 0 r) := by
  induction n with
  | zero => rfl
  | succ n ih =>
    rw [List.range_succ, List.foldl_append, List.foldl_append, ← ih (by omega)]
    simp only [List.foldl_cons, List.foldl_nil]
    exact exec_view X _ n (by omega)

/-- Registers of the code as registers of the specification. -/
def Regs.spec (r : Regs) : Spec.MD5.Regs := ⟨r.a, r.b, r.c, r.d⟩

theorem fold_spec (X : Nat → U32) (r : Regs) (n : Nat) (hn : n ≤ 64) (h4 : n % 4 = 0) :
    (((List.range n).map lineOf).foldl (Line.exec X) r).spec = (List.range n).foldl (Spec.MD5.step X) r.spec := by
  have h := fold_view X r n hn
  rw [List.foldl_map]
  rw [view, h4] at h
  exact h

theorem transform_eq (r : Regs) (block : List U8) :
    (transform r block).spec = Spec.MD5.compress r.spec (decode block) := by
  have h : (lines.foldl (Line.exec (decode block)) r).spec = (List.range 64).foldl (Spec.MD5.step (decode block)) r.spec := by
    rw [lines_eq]
    exact fold_spec (decode block) r 64 (Nat.le_refl _) rfl
  rw [transform, Spec.MD5.compress, ← h]
  generalize lines.foldl (Line.exec (decode block)) r = s
  rfl

theorem decode_le32 (b0 b1 b2 b3 : U8) :
    b0.setWidth 32 ||| (b1.setWidth 32 <<< 8) ||| (b2.setWidth 32 <<< 16) ||| (b3.setWidth 32 <<< 24) =
      le32 b0 b1 b2 b3 := by
  apply BitVec.eq_of_getLsbD_eq
  intro i hi
  rw [le32, BitVec.getLsbD_append, BitVec.getLsbD_append, BitVec.getLsbD_append]
  simp only [BitVec.getLsbD_or, BitVec.getLsbD_shiftLeft, BitVec.getLsbD_setWidth]
  by_cases h0 : i < 8
  · simp [h0, show i < 16 by omega, show i < 24 by omega, hi]
  · by_cases h1 : i < 16
    · simp [h0, h1, hi, show i < 24 by omega, show i - 8 < 8 by omega, show i - 8 < 32 by omega, BitVec.getLsbD_of_ge b0 i (by omega)]
    · by_cases h2 : i < 24
      · simp [h0, h1, h2, hi, show i - 16 < 8 by omega, show i - 16 < 32 by omega, BitVec.getLsbD_of_ge b0 i (by omega),
          BitVec.getLsbD_of_ge b1 (i - 8) (by omega), show i - 8 - 8 < 8 by omega, show i - 8 - 8 = i - 16 by omega,
          show ¬ (i - 8 < 8) by omega]
      · simp [h0, h1, h2, hi, BitVec.getLsbD_of_ge b0 i (by omega),
          BitVec.getLsbD_of_ge b1 (i - 8) (by omega), BitVec.getLsbD_of_ge b2 (i - 16) (by omega),
          show ¬ (i - 8 < 8) by omega, show ¬ (i - 16 < 8) by omega, show i - 8 - 8 - 8 = i - 24 by omega,
          show i - 8 - 8 = i - 16 by omega, show i - 16 - 8 = i - 24 by omega,
          show i - 24 < 32 by omega]

theorem getD_block (p : List U8) (i j : Nat) (h : j < 64) :
    ((p.drop (64 * i)).take 64).getD j 0 = p.getD (64 * i + j) 0 := by
  simp only [List.getD_eq_getElem?_getD]
  rw [List.getElem?_take_of_lt h, List.getElem?_drop]

theorem decode_word (p : List U8) (i k : Nat) (hk : k < 16) :
    decode ((p.drop (64 * i)).take 64) k = Spec.MD5.word p i k := by
  simp only [decode, Spec.MD5.word, decode_le32]
  rw [getD_block _ _ _ (by omega), getD_block _ _ _ (by omega), getD_block _ _ _ (by omega), getD_block _ _ _ (by omega)]
  rfl

theorem idx_lt (t : Nat) : Spec.MD5.idx t < 16 := by
  simp only [Spec.MD5.idx]
  split <;> omega

theorem compress_congr (r : Spec.MD5.Regs) (X Y : Nat → U32) (h : ∀ k < 16, X k = Y k) :
    Spec.MD5.compress r X = Spec.MD5.compress r Y := by
  have hs : Spec.MD5.step X = Spec.MD5.step Y := by
    funext r t
    simp only [Spec.MD5.step, h _ (idx_lt t)]
  simp only [Spec.MD5.compress, hs]

theorem transform_hashAt (p : List U8) (r : Regs) (i : Nat) (hr : r.spec = Spec.MD5.hashAt p i) :
    (transform r ((p.drop (64 * i)).take 64)).spec = Spec.MD5.hashAt p (i + 1) := by
  rw [transform_eq, hr, Spec.MD5.hashAt]
  exact compress_congr _ _ _ fun k hk => decode_word p i k hk

/-- Only the first `i` blocks matter. -/
theorem hashAt_append (p q : List U8) (i : Nat) (h : 64 * i ≤ p.length) :
    Spec.MD5.hashAt (p ++ q) i = Spec.MD5.hashAt p i := by
  induction i with
  | zero => rfl
  | succ i ih =>
    rw [Spec.MD5.hashAt, Spec.MD5.hashAt, ih (by omega)]
    apply compress_congr
    intro k hk
    have e : ∀ j < 4, (p ++ q).getD (64 * i + 4 * k + j) 0 = p.getD (64 * i + 4 * k + j) 0 := by
      intro j hj
      simp only [List.getD_eq_getElem?_getD]
      rw [List.getElem?_append_left (by omega)]
    simp only [Spec.MD5.word, e 0 (by omega), e 1 (by omega), e 2 (by omega), e 3 (by omega)]

/-! ### The loop -/

theorem slice_ok {l : List U8} {i n : Nat} (h : i + n ≤ l.length) : slice l i n = .ok ((l.drop i).take n) := by
  rw [slice, if_pos h]

theorem slice_ok' {l : List U8} (e : List U8) {i n : Nat} (h : i + n ≤ l.length) :
    slice (l ++ e) i n = .ok ((l.drop i).take n) := by
  rw [slice, if_pos (by rw [List.length_append]; omega), List.drop_append_of_le_length (by omega),
    List.take_append_of_le_length (by rw [List.length_drop]; omega)]

/-- `n` iterations without wrap-around: block `j` of `m ++ input` starts at `input[i]`. -/
theorem updateLoop_run (m input extra : List U8) (n fuel i j : Nat) (r : Regs)
    (hi : i + 64 * n ≤ input.length) (hw : i + 64 * n < 2 ^ 32) (hj : 64 * j = m.length + i)
    (hr : r.spec = Spec.MD5.hashAt (m ++ input) j) :
    ∃ r', r'.spec = Spec.MD5.hashAt (m ++ input) (j + n) ∧
      updateLoop (input ++ extra) input.length (fuel + n) i r = updateLoop (input ++ extra) input.length fuel (i + 64 * n) r' := by
  induction n generalizing i j r with
  | zero => exact ⟨r, hr, rfl⟩
  | succ n ih =>
    have e : (m ++ input).drop (64 * j) = input.drop i := by
      rw [hj, List.drop_append]
      simp
    obtain ⟨r', h1, h2⟩ := ih (i + 64) (j + 1) (transform r ((input.drop i).take 64)) (by omega) (by omega) (by omega)
      (by rw [← e]; exact transform_hashAt _ _ _ hr)
    refine ⟨r', by rw [h1]; congr 1; omega, ?_⟩
    rw [← Nat.add_assoc, updateLoop, if_pos (by omega), slice_ok' _ (by omega)]
    simp only [Res.ok_bind]
    rw [Nat.mod_eq_of_lt (by omega), h2]
    congr 1; omega

/-! ### The context -/

/-- The context represents the byte string `m`. -/
structure Rep (c : Ctx) (m : List U8) : Prop where
  state : c.regs.spec = Spec.MD5.hashAt m (m.length / 64)
  count : c.count0.toNat + 2 ^ 32 * c.count1.toNat = (8 * m.length) % 2 ^ 64
  len : c.buffer.length = 64
  buf : c.buffer.take (m.length % 64) = m.drop (64 * (m.length / 64))

theorem rep_init (c : Ctx) (h : c.buffer.length = 64) : Rep (init c) [] := by
  refine ⟨rfl, rfl, h, by simp⟩

theorem index_nat (x : U32) : ((x >>> 3) &&& 0x3f).toNat = x.toNat / 8 % 64 := by
  have h : (0x3f : U32).toNat = 2 ^ 6 - 1 := rfl
  rw [BitVec.toNat_and, BitVec.toNat_ushiftRight, h, Nat.and_two_pow_sub_one_eq_mod, Nat.shiftRight_eq_div_pow]

theorem rep_index {c : Ctx} {m : List U8} (h : Rep c m) :
    ((c.count0 >>> 3) &&& 0x3f).toNat = m.length % 64 := by
  rw [index_nat]
  have := h.count
  have := c.count0.isLt
  omega

theorem count_update (c0 c1 len : U32) (n : Nat) (h : c0.toNat + 2 ^ 32 * c1.toNat = (8 * n) % 2 ^ 64) :
    (c0 + (len <<< 3)).toNat + 2 ^ 32 *
      ((if c0 + (len <<< 3) < len <<< 3 then c1 + 1 else c1) + (len >>> 29)).toNat =
      (8 * (n + len.toNat)) % 2 ^ 64 := by
  have hs : (len <<< 3).toNat = (len.toNat * 8) % 2 ^ 32 := by
    rw [BitVec.toNat_shiftLeft, Nat.shiftLeft_eq]
  have hr : (len >>> 29).toNat = len.toNat / 2 ^ 29 := by
    rw [BitVec.toNat_ushiftRight, Nat.shiftRight_eq_div_pow]
  have := c0.isLt
  have := c1.isLt
  have := len.isLt
  have h1 : (1 : U32).toNat = 1 := rfl
  split
  · rename_i hc
    rw [BitVec.lt_def, BitVec.toNat_add, hs] at hc
    rw [BitVec.toNat_add, BitVec.toNat_add, BitVec.toNat_add, hs, hr, h1]
    omega
  · rename_i hc
    rw [BitVec.lt_def, BitVec.toNat_add, hs] at hc
    rw [BitVec.toNat_add, BitVec.toNat_add, hs, hr]
    omega

theorem drop_append_ge {α} (p q : List α) (n : Nat) (h : p.length ≤ n) : (p ++ q).drop n = q.drop (n - p.length) := by
  rw [List.drop_append]
  rw [List.drop_eq_nil_of_le h, List.nil_append]

/-- The first block is completed. -/
theorem first_block {c : Ctx} {m : List U8} (h : Rep c m) (input : List U8)
    (hl : 64 - m.length % 64 ≤ input.length) :
    Mem.wrs c.buffer (m.length % 64) (input.take (64 - m.length % 64)) =
      .ok (((m ++ input).drop (64 * (m.length / 64))).take 64) := by
  rw [Mem.wrs_eq _ _ (by rw [List.length_take, h.len]; omega), h.buf]
  congr 1
  have e : (m ++ input).drop (64 * (m.length / 64)) = m.drop (64 * (m.length / 64)) ++ input := by
    rw [List.drop_append, show 64 * (m.length / 64) - m.length = 0 by omega, List.drop_zero]
  have hml : (m.drop (64 * (m.length / 64))).length = m.length % 64 := by rw [List.length_drop]; omega
  rw [e, List.take_append, hml, List.take_of_length_le (l := m.drop _) (by omega),
    List.drop_eq_nil_of_le (as := c.buffer) (by rw [List.length_take, h.len]; omega), List.append_nil]

theorem update_rep {c : Ctx} {m : List U8} (h : Rep c m) (input extra : List U8) (len : U32)
    (hlen : len.toNat = input.length) (hw : m.length % 64 + input.length < 2 ^ 32) :
    ∃ c', update c (input ++ extra) len = .ok c' ∧ Rep c' (m ++ input) := by
  have hidx := rep_index h
  have hcnt := count_update c.count0 c.count1 len m.length h.count
  simp only [update, hidx, hlen]
  generalize (if c.count0 + (len <<< 3) < len <<< 3 then c.count1 + 1 else c.count1) + (len >>> 29) = k1 at hcnt ⊢
  generalize c.count0 + (len <<< 3) = k0 at hcnt ⊢
  by_cases hge : input.length ≥ 64 - m.length % 64
  · simp only [hge, if_true]
    rw [slice_ok' _ (by omega)]
    simp only [Res.ok_bind, List.drop_zero]
    rw [first_block h input (by omega)]
    simp only [Res.ok_bind, List.take_take, Nat.min_self]
    -- number of further blocks
    have hn : ∃ n r, input.length = (64 - m.length % 64) + 64 * n + r ∧ r < 64 :=
      ⟨(input.length - (64 - m.length % 64)) / 64, (input.length - (64 - m.length % 64)) % 64, by omega, by omega⟩
    obtain ⟨n, r, hn, hr⟩ := hn
    have h0 : (transform ⟨c.s0, c.s1, c.s2, c.s3⟩
        (((m ++ input).drop (64 * (m.length / 64))).take 64)).spec = Spec.MD5.hashAt (m ++ input) (m.length / 64 + 1) := by
      apply transform_hashAt
      rw [hashAt_append _ _ _ (by omega)]
      exact h.state
    obtain ⟨fu, hf⟩ : ∃ fu, fu + 1 + n = loopFuel := ⟨2 ^ 26 - n, by rw [loopFuel]; omega⟩
    obtain ⟨r', h1, h2⟩ := updateLoop_run m input extra n (fu + 1) (64 - m.length % 64) (m.length / 64 + 1) _
      (by omega) (by omega) (by omega) h0
    rw [hf] at h2
    simp only [Ctx.regs] at h2 ⊢
    have hstop : ¬ (64 - m.length % 64 + 64 * n + 63) % 2 ^ 32 < input.length := by omega
    have h3 := h2.trans (updateLoop.eq_2 _ _ _ _ _)
    rw [if_neg hstop] at h3
    rw [h3, Res.ok_bind]
    have hrest : (input.length + 2 ^ 32 - (64 - m.length % 64 + 64 * n)) % 2 ^ 32 = r := by omega
    rw [hrest, slice_ok' _ (by omega), Res.ok_bind]
    have hbl : (((m ++ input).drop (64 * (m.length / 64))).take 64).length = 64 := by
      rw [List.length_take, List.length_drop, List.length_append]; omega
    have hrl : ((input.drop (64 - m.length % 64 + 64 * n)).take r).length = r := by
      rw [List.length_take, List.length_drop]; omega
    rw [Mem.wrs_eq _ _ (by rw [hbl, hrl]; omega), Res.ok_bind]
    refine ⟨_, rfl, ?_, ?_, ?_, ?_⟩
    · have : (m ++ input).length / 64 = m.length / 64 + 1 + n := by rw [List.length_append]; omega
      rw [this]
      exact h1
    · rw [List.length_append, ← hlen]
      exact hcnt
    · show (List.take 0 _ ++ _ ++ List.drop _ _).length = 64
      rw [List.length_append, List.length_append, List.length_drop, hbl, hrl, List.length_take]
      omega
    · show (List.take 0 _ ++ _ ++ List.drop _ _).take _ = _
      have e1 : (m ++ input).length % 64 = r := by rw [List.length_append]; omega
      have e2 : 64 * ((m ++ input).length / 64) = m.length + (64 - m.length % 64 + 64 * n) := by
        rw [List.length_append]; omega
      rw [e1, e2, List.take_zero, List.nil_append, List.take_left' hrl, drop_append_ge _ _ _ (by omega),
        Nat.add_sub_cancel_left]
      apply List.take_of_length_le
      rw [List.length_drop]; omega
  · simp only [hge, if_false]
    rw [slice_ok' _ (by omega)]
    simp only [Res.ok_bind, List.drop_zero]
    rw [List.take_of_length_le (Nat.le_refl _), Mem.wrs_eq _ _ (by rw [h.len]; omega), h.buf]
    refine ⟨_, rfl, ?_, ?_, ?_, ?_⟩
    · have : (m ++ input).length / 64 = m.length / 64 := by rw [List.length_append]; omega
      rw [this, hashAt_append _ _ _ (by omega)]
      exact h.state
    · rw [List.length_append, ← hlen]
      exact hcnt
    · show (List.drop _ _ ++ _ ++ List.drop _ _).length = 64
      rw [List.length_append, List.length_append, List.length_drop, List.length_drop, h.len]
      omega
    · show (List.drop _ _ ++ _ ++ List.drop _ _).take _ = _
      have e1 : (m ++ input).length % 64 = m.length % 64 + input.length := by rw [List.length_append]; omega
      have e2 : 64 * ((m ++ input).length / 64) = 64 * (m.length / 64) := by
        rw [List.length_append]; omega
      rw [e1, e2, List.take_left']
      · rw [List.drop_append, show 64 * (m.length / 64) - m.length = 0 by omega, List.drop_zero]
      · rw [List.length_append, List.length_drop]; omega

/-- With wrap-around, the loop reads beyond the input. -/
theorem update_wrap {c : Ctx} {m : List U8} (h : Rep c m) (input : List U8) (len : U32)
    (hlen : len.toNat = input.length) (hw : 2 ^ 32 ≤ m.length % 64 + input.length) :
    update c input len = .ub .outOfBounds := by
  have hidx := rep_index h
  have hL : input.length < 2 ^ 32 := by rw [← hlen]; exact len.isLt
  have hcnt := count_update c.count0 c.count1 len m.length h.count
  simp only [update, hidx, hlen]
  generalize (if c.count0 + (len <<< 3) < len <<< 3 then c.count1 + 1 else c.count1) + (len >>> 29) = k1 at hcnt ⊢
  generalize c.count0 + (len <<< 3) = k0 at hcnt ⊢
  have hge : input.length ≥ 64 - m.length % 64 := by omega
  simp only [hge, if_true]
  rw [slice_ok (by omega)]
  simp only [Res.ok_bind, List.drop_zero]
  rw [first_block h input (by omega)]
  simp only [Res.ok_bind, List.take_take, Nat.min_self]
  have h0 : (transform ⟨c.s0, c.s1, c.s2, c.s3⟩
      (((m ++ input).drop (64 * (m.length / 64))).take 64)).spec = Spec.MD5.hashAt (m ++ input) (m.length / 64 + 1) := by
    apply transform_hashAt
    rw [hashAt_append _ _ _ (by omega)]
    exact h.state
  obtain ⟨r', -, h2⟩ := updateLoop_run m input [] (2 ^ 26 - 1) 2 (64 - m.length % 64) (m.length / 64 + 1) _
    (by omega) (by omega) (by omega) h0
  have hf : 2 + (2 ^ 26 - 1) = loopFuel := rfl
  rw [hf, List.append_nil] at h2
  simp only [Ctx.regs] at h2 ⊢
  have hgo : (64 - m.length % 64 + 64 * (2 ^ 26 - 1) + 63) % 2 ^ 32 < input.length := by omega
  have h3 := h2.trans (updateLoop.eq_2 _ _ _ _ _)
  rw [if_pos hgo, slice, if_neg (by omega)] at h3
  rw [h3]
  rfl

/-! ### Finalisation -/

theorem encodeWord_eq (w : U32) : encodeWord w = bytesLE32 w := by
  have hb : ∀ n < 4, byteN w n = ((w >>> (8 * n)) &&& 0xff).setWidth 8 := by
    intro n hn
    have : n = 0 ∨ n = 1 ∨ n = 2 ∨ n = 3 := by omega
    rcases this with h | h | h | h <;> subst h <;>
    · simp only [byteN]
      ext i hi
      have hi' : i = 0 ∨ i = 1 ∨ i = 2 ∨ i = 3 ∨ i = 4 ∨ i = 5 ∨ i = 6 ∨ i = 7 := by omega
      rcases hi' with h | h | h | h | h | h | h | h <;> subst h <;> simp
  simp only [encodeWord, bytesLE32, hb 0 (by omega), hb 1 (by omega), hb 2 (by omega), hb 3 (by omega)]
  simp

theorem byteN_ofNat (w : U32) (n k : Nat) : byteN w n = BitVec.ofNat 8 (w.toNat / 2 ^ (8 * n)) := by
  apply BitVec.eq_of_toNat_eq
  simp [byteN, BitVec.extractLsb'_toNat, Nat.shiftRight_eq_div_pow]

theorem bits_eq (c0 c1 : U32) (n : Nat) (h : c0.toNat + 2 ^ 32 * c1.toNat = (8 * n) % 2 ^ 64) :
    encodeWord c0 ++ encodeWord c1 = Spec.MD5.le64 (8 * n) := by
  have := c0.isLt
  have := c1.isLt
  have hb : ∀ x y, x % 256 = y % 256 → BitVec.ofNat 8 x = BitVec.ofNat 8 y := by
    intro x y hxy
    apply BitVec.eq_of_toNat_eq
    simpa using hxy
  simp only [encodeWord_eq, bytesLE32, byteN_ofNat _ _ 0, Spec.MD5.le64, List.map_cons, List.map_nil,
    List.cons_append, List.nil_append, List.cons.injEq, and_true]
  refine ⟨hb _ _ ?_, hb _ _ ?_, hb _ _ ?_, hb _ _ ?_, hb _ _ ?_, hb _ _ ?_, hb _ _ ?_, hb _ _ ?_⟩ <;> omega

theorem zeros_lt (n : Nat) : Spec.MD5.zeros n < 64 := by
  simp only [Spec.MD5.zeros]; omega

theorem le64_length (n : Nat) : (Spec.MD5.le64 n).length = 8 := rfl

theorem pad_length (m : List U8) : (Spec.MD5.pad m).length = m.length + 9 + Spec.MD5.zeros m.length := by
  simp [Spec.MD5.pad, le64_length]; omega

theorem final_rep {c : Ctx} {m : List U8} (h : Rep c m) (dst : List U8) (hd : 16 ≤ dst.length) :
    final dst c = .ok (Spec.MD5.digest m ++ dst.drop 16,
      { s0 := 0, s1 := 0, s2 := 0, s3 := 0, count0 := 0, count1 := 0, buffer := List.replicate 64 0 }) := by
  have hidx := rep_index h
  simp only [final]
  rw [bits_eq _ _ _ h.count]
  generalize hi : (c.count0 >>> 3) &&& 0x3f = idx at *
  have hz := zeros_lt m.length
  have hp : (if idx < 56 then 56 - idx else 120 - idx).toNat = 1 + Spec.MD5.zeros m.length := by
    have h56 : (56 : U32).toNat = 56 := rfl
    have h120 : (120 : U32).toNat = 120 := rfl
    simp only [Spec.MD5.zeros]
    split
    · rename_i hc
      rw [BitVec.lt_def, h56] at hc
      rw [BitVec.toNat_sub, h56]; omega
    · rename_i hc
      rw [BitVec.lt_def, h56] at hc
      rw [BitVec.toNat_sub, h120]; omega
  have hP : PADDING = ((0x80 : U8) :: List.replicate (Spec.MD5.zeros m.length) 0) ++ List.replicate (63 - Spec.MD5.zeros m.length) 0 := by
    rw [PADDING, List.cons_append, List.replicate_append_replicate]
    congr 2; omega
  rw [hP]
  obtain ⟨c1, h1, r1⟩ := update_rep h ((0x80 : U8) :: List.replicate (Spec.MD5.zeros m.length) 0)
    (List.replicate (63 - Spec.MD5.zeros m.length) 0) (if idx < 56 then 56 - idx else 120 - idx)
    (by rw [hp]; simp; omega) (by simp; omega)
  rw [h1]
  simp only [Res.ok_bind]
  obtain ⟨c2, h2, r2⟩ := update_rep r1 (Spec.MD5.le64 (8 * m.length)) [] 8 (by rw [le64_length]; rfl)
    (by rw [le64_length]; omega)
  rw [List.append_nil] at h2
  rw [h2]
  simp only [Res.ok_bind]
  have e : m ++ 128 :: List.replicate (Spec.MD5.zeros m.length) 0 ++ Spec.MD5.le64 (8 * m.length) = Spec.MD5.pad m := by
    simp [Spec.MD5.pad]
  have hs := r2.state
  rw [e] at hs
  have ho : encodeWord c2.s0 ++ encodeWord c2.s1 ++ encodeWord c2.s2 ++ encodeWord c2.s3 = Spec.MD5.digest m := by
    simp only [encodeWord_eq]
    rw [Spec.MD5.digest, ← hs]
    rfl
  have hl : (Spec.MD5.digest m).length = 16 := by
    simp only [Spec.MD5.digest, Spec.MD5.Regs.bytes, List.length_append, bytesLE32_length]
  rw [ho, Mem.wrs_eq _ _ (by rw [hl]; omega), hl]
  simp

end CT.MD5
