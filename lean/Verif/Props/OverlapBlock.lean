import Verif.Model.OverlapBlock

/-!
# C130: AES-CFB, AEGIS and DES on buffers that overlap

The run on one array is compared, access by access, with the run on separate copies of the two parts.
-/

namespace CT.Props.OverlapBlock
open CT

/-- The array `v` holds what the separate buffers `io` hold: the output from `v.o` on, the input bytes from `lo` to `n` from
`v.i` on, and the original array before `v.o`.  `d` is the distance that the input must be ahead of the output. -/
structure Sim (d n lo : Nat) (m0 : List U8) (v : Ov) (io : Io) : Prop where
  alias : io.alias = false
  cond : v.o + d ≤ v.i ∨ v.i + n ≤ v.o
  out : v.mem.drop v.o = io.out
  pre : v.mem.take v.o = m0.take v.o
  inp : ∀ j, lo ≤ j → j < n → v.mem[v.i + j]? = io.inp[j]?

variable {d n lo lo' : Nat} {m0 : List U8} {v : Ov} {io io' : Io}

theorem Sim.mono (h : Sim d n lo m0 v io) (hl : lo ≤ lo') : Sim d n lo' m0 v io :=
  { h with inp := fun j h1 h2 => h.inp j (by omega) h2 }

theorem Sim.rd8 (h : Sim d n lo m0 v io) {j : Nat} (h1 : lo ≤ j) (h2 : j < n) : v.rd8 j = io.rd8 j := by
  have : io.src = io.inp := by rw [Io.src, h.alias]; rfl
  rw [Ov.rd8, Io.rd8, this, h.inp j h1 h2]; rfl

theorem Sim.rd32 (h : Sim d n lo m0 v io) {j : Nat} (h1 : lo ≤ j) (h2 : j + 4 ≤ n) : v.rd32 j = io.rd32 j := by
  rw [Ov.rd32, Io.rd32, h.rd8 h1 (by omega), h.rd8 (by omega) (by omega), h.rd8 (by omega) (by omega),
    h.rd8 (by omega) (by omega)]

theorem Sim.rdOut8 (h : Sim d n lo m0 v io) (j : Nat) : v.rdOut8 j = io.rdOut8 j := by
  rw [Ov.rdOut8, Io.rdOut8, ← h.out, List.getElem?_drop]; rfl

theorem Sim.rdOut32 (h : Sim d n lo m0 v io) (j : Nat) : v.rdOut32 j = io.rdOut32 j := by
  rw [Ov.rdOut32, Io.rdOut32, h.rdOut8, h.rdOut8, h.rdOut8, h.rdOut8]

theorem Sim.wr8 (h : Sim d n lo m0 v io) {j : Nat} {b : U8} (hj : j < lo + d) (e : io.wr8 j b = .ok io') :
    ∃ v', v.wr8 j b = .ok v' ∧ Sim d n lo m0 v' io' ∧ v'.o = v.o ∧ v'.i = v.i := by
  rw [Io.wr8] at e
  split at e
  · rename_i hl
    rw [Res.ok_inj] at e
    subst e
    have hlen : v.o + j < v.mem.length := by
      rw [← h.out, List.length_drop] at hl; omega
    refine ⟨{ v with mem := v.mem.set (v.o + j) b }, by rw [Ov.wr8, if_pos hlen], ⟨h.alias, h.cond, ?_, ?_, ?_⟩, rfl, rfl⟩
    · show (v.mem.set (v.o + j) b).drop v.o = io.out.set j b
      rw [List.drop_set, if_neg (by omega), h.out, Nat.add_sub_cancel_left]
    · show (v.mem.set (v.o + j) b).take v.o = m0.take v.o
      rw [List.take_set_of_le (by omega), h.pre]
    · intro k h1 h2
      show (v.mem.set (v.o + j) b)[v.i + k]? = io.inp[k]?
      have := h.cond
      rw [List.getElem?_set_ne (by omega), h.inp k h1 h2]
  · cases e

theorem Sim.wr32 (h : Sim d n lo m0 v io) {j : Nat} {w : U32} (hj : j + 4 ≤ lo + d) (e : io.wr32 j w = .ok io') :
    ∃ v', v.wr32 j w = .ok v' ∧ Sim d n lo m0 v' io' ∧ v'.o = v.o ∧ v'.i = v.i := by
  rw [Io.wr32] at e
  obtain ⟨a, e1, e⟩ := Res.bind_eq_ok e
  obtain ⟨b, e2, e⟩ := Res.bind_eq_ok e
  obtain ⟨c, e3, e⟩ := Res.bind_eq_ok e
  obtain ⟨v1, f1, h1, o1, i1⟩ := h.wr8 (by omega) e1
  obtain ⟨v2, f2, h2, o2, i2⟩ := h1.wr8 (by omega) e2
  obtain ⟨v3, f3, h3, o3, i3⟩ := h2.wr8 (by omega) e3
  obtain ⟨v4, f4, h4, o4, i4⟩ := h3.wr8 (by omega) e
  exact ⟨v4, by rw [Ov.wr32, f1, Res.ok_bind, f2, Res.ok_bind, f3, Res.ok_bind, f4], h4, by omega, by omega⟩

theorem Sim.xor8 (h : Sim d n lo m0 v io) {j : Nat} {k : U8} (h1 : lo ≤ j) (h2 : j < n) (hl : lo ≤ lo') (hj : j < lo' + d)
    (e : io.xor8 j k = .ok io') : ∃ v', v.xor8 j k = .ok v' ∧ Sim d n lo' m0 v' io' ∧ v'.o = v.o ∧ v'.i = v.i := by
  rw [Io.xor8] at e
  obtain ⟨b, e1, e⟩ := Res.bind_eq_ok e
  obtain ⟨v', f, h'⟩ := (h.mono hl).wr8 hj e
  exact ⟨v', by rw [Ov.xor8, h.rd8 h1 h2, e1, Res.ok_bind, f], h'⟩

theorem Sim.xor32 (h : Sim d n lo m0 v io) {j : Nat} {k : U32} (h1 : lo ≤ j) (h2 : j + 4 ≤ n) (hl : lo ≤ lo') (hj : j + 4 ≤ lo' + d)
    (e : io.xor32 j k = .ok io') : ∃ v', v.xor32 j k = .ok v' ∧ Sim d n lo' m0 v' io' ∧ v'.o = v.o ∧ v'.i = v.i := by
  rw [Io.xor32] at e
  obtain ⟨b, e1, e⟩ := Res.bind_eq_ok e
  obtain ⟨v', f, h'⟩ := (h.mono hl).wr32 hj e
  exact ⟨v', by rw [Ov.xor32, h.rd32 h1 h2, e1, Res.ok_bind, f], h'⟩

/-- After the work on a piece that ends at `e`, the window starts there or, if the input is that far ahead, still at the start. -/
theorem Sim.wordLoop (ws : List U32) (fuel : Nat) : ∀ {lo sz idx off : Nat} {v : Ov} {io : Io} {r : Nat × Nat × Nat × Io},
    Sim d n lo m0 v io → lo ≤ off → off ≤ lo + (if d = 0 then 0 else 16) → off + sz ≤ n → (d = 0 ∨ (16 ≤ d ∧ off + sz ≤ lo + 16)) →
    Io.wordLoop ws fuel sz idx off io = .ok r →
    ∃ v', Ov.wordLoop ws fuel sz idx off v = .ok (r.1, r.2.1, r.2.2.1, v') ∧
      Sim d n (if d = 0 then r.2.2.1 else lo) m0 v' r.2.2.2 ∧ v'.o = v.o ∧ v'.i = v.i ∧ r.2.2.1 + r.1 = off + sz ∧ off ≤ r.2.2.1 := by
  induction fuel with
  | zero => intro lo sz idx off v io r _ _ _ _ _ e; rw [Io.wordLoop] at e; cases e
  | succ fuel ih =>
    intro lo sz idx off v io r h hlo hlo2 hn hd e
    rw [Io.wordLoop] at e
    rw [Ov.wordLoop]
    by_cases hs : sz > 3
    · rw [if_pos hs] at e ⊢
      obtain ⟨k, e1, e⟩ := Res.bind_eq_ok e
      obtain ⟨a, e2, e⟩ := Res.bind_eq_ok e
      obtain ⟨v1, f1, h1, o1, i1⟩ := h.xor32 (lo' := if d = 0 then off + 4 else lo) hlo (by omega) (by split <;> omega)
        (by split <;> omega) e2
      obtain ⟨v2, f2, h2, o2, i2, t1, t2⟩ := ih h1 (by split <;> omega) (by split <;> omega) (by omega) (by split <;> omega) e
      refine ⟨v2, by rw [e1, Res.ok_bind, f1, Res.ok_bind, f2], ?_, by omega, by omega, by omega, by omega⟩
      by_cases h0 : d = 0
      · simpa only [if_pos h0] using h2
      · simpa only [if_neg h0] using h2
    · rw [if_neg hs] at e ⊢
      rw [Res.ok_inj] at e
      subst e
      exact ⟨v, rfl, h.mono (by split <;> omega), rfl, rfl, rfl, Nat.le_refl _⟩

theorem Sim.byteLoop (ws : List U32) : ∀ {sz j lo off : Nat} {v : Ov} {io r : Io},
    Sim d n lo m0 v io → lo ≤ off → off + sz ≤ n → (d = 0 ∨ (16 ≤ d ∧ off + sz ≤ lo + 16)) →
    Io.byteLoop ws sz j off io = .ok r →
    ∃ v', Ov.byteLoop ws sz j off v = .ok v' ∧ Sim d n (if d = 0 then off + sz else lo) m0 v' r ∧ v'.o = v.o ∧ v'.i = v.i := by
  intro sz
  induction sz with
  | zero =>
    intro j lo off v io r h hlo _ _ e
    rw [Io.byteLoop, Res.ok_inj] at e
    subst e
    exact ⟨v, rfl, h.mono (by split <;> omega), rfl, rfl⟩
  | succ sz ih =>
    intro j lo off v io r h hlo hn hd e
    rw [Io.byteLoop] at e
    rw [Ov.byteLoop]
    obtain ⟨k, e1, e⟩ := Res.bind_eq_ok e
    obtain ⟨a, e2, e⟩ := Res.bind_eq_ok e
    obtain ⟨v1, f1, h1, o1, i1⟩ := h.xor8 (lo' := if d = 0 then off + 1 else lo) hlo (by omega) (by split <;> omega)
      (by split <;> omega) e2
    obtain ⟨v2, f2, h2, o2, i2⟩ := ih h1 (by split <;> omega) (by omega) (by split <;> omega) e
    refine ⟨v2, by rw [e1, Res.ok_bind, f1, Res.ok_bind, f2], ?_, by omega, by omega⟩
    by_cases h0 : d = 0
    · simp only [if_pos h0] at h2 ⊢
      rw [show off + (sz + 1) = off + 1 + sz by omega]; exact h2
    · simpa only [if_neg h0] using h2

theorem Sim.tailBytes (w : U32) : ∀ {sz t lo off : Nat} {v : Ov} {io r : Io},
    Sim d n lo m0 v io → lo ≤ off → off + sz ≤ n → (d = 0 ∨ (16 ≤ d ∧ off + sz ≤ lo + 16)) →
    AES.tailBytes w sz t off io = .ok r →
    ∃ v', Ov.tailBytes w sz t off v = .ok v' ∧ Sim d n (if d = 0 then off + sz else lo) m0 v' r ∧ v'.o = v.o ∧ v'.i = v.i := by
  intro sz
  induction sz with
  | zero =>
    intro t lo off v io r h hlo _ _ e
    rw [AES.tailBytes, Res.ok_inj] at e
    subst e
    exact ⟨v, rfl, h.mono (by split <;> omega), rfl, rfl⟩
  | succ sz ih =>
    intro t lo off v io r h hlo hn hd e
    rw [AES.tailBytes] at e
    rw [Ov.tailBytes]
    by_cases hs : 32 ≤ 24 + 8 * t
    · simp only [if_pos hs] at e; cases e
    · simp only [if_neg hs] at e ⊢
      obtain ⟨a, e2, e⟩ := Res.bind_eq_ok e
      obtain ⟨v1, f1, h1, o1, i1⟩ := h.xor8 (lo' := if d = 0 then off + 1 else lo) hlo (by omega) (by split <;> omega)
        (by split <;> omega) e2
      obtain ⟨v2, f2, h2, o2, i2⟩ := ih h1 (by split <;> omega) (by omega) (by split <;> omega) e
      refine ⟨v2, by rw [f1, Res.ok_bind, f2], ?_, by omega, by omega⟩
      by_cases h0 : d = 0
      · simp only [if_pos h0] at h2 ⊢
        rw [show off + (sz + 1) = off + 1 + sz by omega]; exact h2
      · simpa only [if_neg h0] using h2

theorem Sim.tailLoops (ws : List U32) {sz off : Nat} {r : Io} (h : Sim d n lo m0 v io) (hlo : lo ≤ off)
    (hlo2 : off ≤ lo + (if d = 0 then 0 else 16)) (hn : off + sz ≤ n) (hd : d = 0 ∨ (16 ≤ d ∧ off + sz ≤ lo + 16))
    (e : AES.tailLoops ws sz off io = .ok r) :
    ∃ v', Ov.tailLoops ws sz off v = .ok v' ∧ Sim d n (if d = 0 then off + sz else lo) m0 v' r ∧ v'.o = v.o ∧ v'.i = v.i := by
  rw [AES.tailLoops] at e
  rw [Ov.tailLoops]
  obtain ⟨⟨m, k, off1, io1⟩, e1, e⟩ := Res.bind_eq_ok e
  obtain ⟨v1, f1, h1, o1, i1, t1, t2⟩ := h.wordLoop ws 16 hlo hlo2 hn hd e1
  simp only at f1 h1 t1 t2 e
  rw [f1, Res.ok_bind]
  simp only
  by_cases hm : m > 0
  · rw [if_pos hm] at e ⊢
    obtain ⟨w, e2, e⟩ := Res.bind_eq_ok e
    obtain ⟨v2, f2, h2, o2, i2⟩ := h1.tailBytes w (by split <;> omega) (by omega) (by split <;> omega) e
    refine ⟨v2, by rw [e2, Res.ok_bind, f2], ?_, by omega, by omega⟩
    by_cases h0 : d = 0
    · simp only [if_pos h0] at h2 ⊢
      rw [show off + sz = off1 + m by omega]; exact h2
    · simpa only [if_neg h0] using h2
  · rw [if_neg hm] at e ⊢
    have e : io1 = r := Res.ok_inj.mp e
    subst e
    refine ⟨v1, rfl, ?_, o1, i1⟩
    by_cases h0 : d = 0
    · simp only [if_pos h0] at h1 ⊢
      rw [show off + sz = off1 by omega]; exact h1
    · simpa only [if_neg h0] using h1

theorem Sim.four (h : Sim d n lo m0 v io) {off : Nat} {k : Quad} {a b c io' : Io} (hlo : lo = off) (hn : off + 16 ≤ n)
    (hd : d = 0 ∨ 16 ≤ d) (e1 : io.xor32 off k.w0 = .ok a) (e2 : a.xor32 (off + 4) k.w1 = .ok b)
    (e3 : b.xor32 (off + 8) k.w2 = .ok c) (e4 : c.xor32 (off + 12) k.w3 = .ok io') :
    ∃ v1 v2 v3 v', v.xor32 off k.w0 = .ok v1 ∧ v1.xor32 (off + 4) k.w1 = .ok v2 ∧ v2.xor32 (off + 8) k.w2 = .ok v3 ∧
      v3.xor32 (off + 12) k.w3 = .ok v' ∧ Sim d n (if d = 0 then off + 16 else off) m0 v' io' ∧ v'.o = v.o ∧ v'.i = v.i := by
  subst hlo
  obtain ⟨v1, f1, h1, o1, i1⟩ := h.xor32 (lo' := if d = 0 then lo + 4 else lo) (by omega) (by omega) (by split <;> omega)
    (by split <;> omega) e1
  obtain ⟨v2, f2, h2, o2, i2⟩ := h1.xor32 (lo' := if d = 0 then lo + 8 else lo) (by split <;> omega) (by omega) (by split <;> omega)
    (by split <;> omega) e2
  obtain ⟨v3, f3, h3, o3, i3⟩ := h2.xor32 (lo' := if d = 0 then lo + 12 else lo) (by split <;> omega) (by omega)
    (by split <;> omega) (by split <;> omega) e3
  obtain ⟨v4, f4, h4, o4, i4⟩ := h3.xor32 (lo' := if d = 0 then lo + 16 else lo) (by split <;> omega) (by omega)
    (by split <;> omega) (by split <;> omega) e4
  exact ⟨v1, v2, v3, v4, f1, f2, f3, f4, h4, by omega, by omega⟩

/-- The feedback: from the output always, from the input if that is sixteen bytes ahead. -/
theorem Sim.ctRd32 (h : Sim d n lo m0 v io) {mode : Bool} {j : Nat} (hm : mode = true → lo ≤ j ∧ j + 4 ≤ n) :
    v.ctRd32 mode j = AES.ctRd32 mode io j := by
  cases mode with
  | false => exact h.rdOut32 j
  | true => exact h.rd32 (hm rfl).1 (hm rfl).2

theorem Sim.ctRd8 (h : Sim d n lo m0 v io) {mode : Bool} {j : Nat} (hm : mode = true → lo ≤ j ∧ j < n) :
    v.ctRd8 mode j = AES.ctRd8 mode io j := by
  cases mode with
  | false => exact h.rdOut8 j
  | true => exact h.rd8 (hm rfl).1 (hm rfl).2

/-- The array at the end. -/
theorem Sim.mem_eq (h : Sim d n lo m0 v io) : v = ⟨m0.take v.o ++ io.out, v.o, v.i⟩ := by
  rw [← h.pre, ← h.out, List.take_append_drop]

theorem Sim.start (mem : List U8) (o i : Nat) (h : o + d ≤ i ∨ i + n ≤ o) :
    Sim d n 0 mem ⟨mem, o, i⟩ ⟨mem.drop i, mem.drop o, false⟩ :=
  ⟨rfl, h, rfl, rfl, fun j _ _ => by rw [List.getElem?_drop]⟩

/-! ### AES-CFB -/

theorem partial_congr {r8 s8 : Nat → Res U8} {r32 s32 : Nat → Res U32} {size : Nat} (q : Quad) (h8 : ∀ j, j < size → r8 j = s8 j)
    (h32 : ∀ j, j + 4 ≤ size → r32 j = s32 j) (hs : 0 < size) (hs2 : size < 16) :
    AES.partialStateUpdate r8 r32 q size = AES.partialStateUpdate s8 s32 q size := by
  have : size = 1 ∨ size = 2 ∨ size = 3 ∨ size = 4 ∨ size = 5 ∨ size = 6 ∨ size = 7 ∨ size = 8 ∨ size = 9 ∨ size = 10 ∨ size = 11 ∨
    size = 12 ∨ size = 13 ∨ size = 14 ∨ size = 15 := by omega
  rcases this with h | h | h | h | h | h | h | h | h | h | h | h | h | h | h <;> subst h
  · simp only [AES.partialStateUpdate, Nat.reduceMod, Nat.reduceEqDiff, if_true, if_false, h8 0 (by omega)]
  · simp only [AES.partialStateUpdate, Nat.reduceMod, Nat.reduceEqDiff, if_true, if_false, h8 0 (by omega), h8 1 (by omega)]
  · simp only [AES.partialStateUpdate, Nat.reduceMod, Nat.reduceEqDiff, if_true, if_false, h8 0 (by omega), h8 1 (by omega), h8 2 (by omega)]
  · simp only [AES.partialStateUpdate, Nat.reduceMod, Nat.reduceEqDiff, if_true, if_false, h32 0 (by omega)]
  · simp only [AES.partialStateUpdate, Nat.reduceMod, Nat.reduceEqDiff, if_true, if_false, h8 0 (by omega), h32 1 (by omega)]
  · simp only [AES.partialStateUpdate, Nat.reduceMod, Nat.reduceEqDiff, if_true, if_false, h8 0 (by omega), h8 1 (by omega), h32 2 (by omega)]
  · simp only [AES.partialStateUpdate, Nat.reduceMod, Nat.reduceEqDiff, if_true, if_false, h8 0 (by omega), h8 1 (by omega), h8 2 (by omega), h32 3 (by omega)]
  · simp only [AES.partialStateUpdate, Nat.reduceMod, Nat.reduceEqDiff, if_true, if_false, h32 0 (by omega), h32 1 (by omega)]
  · simp only [AES.partialStateUpdate, Nat.reduceMod, Nat.reduceEqDiff, if_true, if_false, h8 0 (by omega), h32 1 (by omega), h32 5 (by omega)]
  · simp only [AES.partialStateUpdate, Nat.reduceMod, Nat.reduceEqDiff, if_true, if_false, h8 0 (by omega), h8 1 (by omega), h32 2 (by omega), h32 6 (by omega)]
  · simp only [AES.partialStateUpdate, Nat.reduceMod, Nat.reduceEqDiff, if_true, if_false, h8 0 (by omega), h8 1 (by omega), h8 2 (by omega), h32 3 (by omega), h32 7 (by omega)]
  · simp only [AES.partialStateUpdate, Nat.reduceMod, Nat.reduceEqDiff, if_true, if_false, h32 0 (by omega), h32 1 (by omega), h32 2 (by omega)]
  · simp only [AES.partialStateUpdate, Nat.reduceMod, Nat.reduceEqDiff, if_true, if_false, h8 0 (by omega), h32 1 (by omega), h32 5 (by omega), h32 9 (by omega)]
  · simp only [AES.partialStateUpdate, Nat.reduceMod, Nat.reduceEqDiff, if_true, if_false, h8 0 (by omega), h8 1 (by omega), h32 2 (by omega), h32 6 (by omega), h32 10 (by omega)]
  · simp only [AES.partialStateUpdate, Nat.reduceMod, Nat.reduceEqDiff, if_true, if_false, h8 0 (by omega), h8 1 (by omega), h8 2 (by omega), h32 3 (by omega), h32 7 (by omega), h32 11 (by omega)]

theorem Sim.cfbLoop (va : AES.CfbVariant) (mode : Bool) (hd : d = if mode then 16 else 0) (fuel : Nat) :
    ∀ {size off : Nat} {cs : AES.State} {v : Ov} {io : Io} {r : AES.State × Io}, Sim d n off m0 v io → off + size ≤ n →
      AES.cfbLoop va mode fuel size off cs io = .ok r →
      ∃ v', Ov.cfbLoop va mode fuel size off cs v = .ok (r.1, v') ∧ Sim d n n m0 v' r.2 ∧ v'.o = v.o ∧ v'.i = v.i := by
  have hd' : d = 0 ∨ 16 ≤ d := by cases mode <;> simp at hd <;> omega
  have hm : mode = true → d ≠ 0 := by rintro rfl; simp at hd; omega
  induction fuel with
  | zero => intro size off cs v io r _ _ e; rw [AES.cfbLoop] at e; cases e
  | succ fuel ih =>
    intro size off cs v io r h hn e
    rw [AES.cfbLoop] at e
    rw [Ov.cfbLoop]
    by_cases h0 : size > 0
    · rw [if_pos h0] at e ⊢
      generalize AES.cfbEncrypt va cs = ck at e ⊢
      by_cases h16 : size ≥ 16
      · simp only [if_pos h16] at e ⊢
        obtain ⟨a, e1, e⟩ := Res.bind_eq_ok e
        obtain ⟨b, e2, e⟩ := Res.bind_eq_ok e
        obtain ⟨c, e3, e⟩ := Res.bind_eq_ok e
        obtain ⟨io1, e4, e⟩ := Res.bind_eq_ok e
        obtain ⟨reg, e5, e⟩ := Res.bind_eq_ok e
        obtain ⟨v1, v2, v3, v4, f1, f2, f3, f4, h4, o4, i4⟩ := h.four rfl (by omega) hd' e1 e2 e3 e4
        have rd : ∀ j, j + 4 ≤ 16 → v4.ctRd32 mode (off + j) = AES.ctRd32 mode io1 (off + j) := fun j hj =>
          h4.ctRd32 fun t => ⟨by have := hm t; split <;> omega, by omega⟩
        obtain ⟨v5, f5, h5, o5, i5⟩ := ih (h4.mono (lo' := off + 16) (by split <;> omega)) (by omega) e
        refine ⟨v5, ?_, h5, by omega, by omega⟩
        rw [f1, Res.ok_bind, f2, Res.ok_bind, f3, Res.ok_bind, f4, Res.ok_bind]
        rw [show AES.fullStateUpdate (fun i => v4.ctRd32 mode (off + i)) = AES.fullStateUpdate
          (fun i => AES.ctRd32 mode io1 (off + i)) by
            rw [AES.fullStateUpdate, AES.fullStateUpdate, rd 0 (by omega), rd 4 (by omega), rd 8 (by omega), rd 12 (by omega)],
          e5, Res.ok_bind, f5]
      · simp only [if_neg h16] at e ⊢
        obtain ⟨io1, e1, e⟩ := Res.bind_eq_ok e
        obtain ⟨reg, e2, e⟩ := Res.bind_eq_ok e
        rw [Res.ok_inj] at e
        subst e
        obtain ⟨v1, f1, h1, o1, i1⟩ := h.tailLoops _ (Nat.le_refl _) (by omega) hn (by omega) e1
        refine ⟨v1, ?_, h1.mono (by split <;> omega), o1, i1⟩
        rw [f1, Res.ok_bind, partial_congr _ (fun j hj => h1.ctRd8 fun t => ⟨by have := hm t; split <;> omega, by omega⟩)
          (fun j hj => h1.ctRd32 fun t => ⟨by have := hm t; split <;> omega, by omega⟩) h0 (by omega), e2, Res.ok_bind]
    · rw [if_neg h0] at e ⊢
      rw [Res.ok_inj] at e
      subst e
      exact ⟨v, rfl, h.mono (by omega), rfl, rfl⟩

/-- C130, AES-CFB, the part that holds.  If the call with separate copies of the two parts is defined, then the call on the one
array does the same, with the output written from `o` on and the rest of the array as it was: for encryption (`mode = 0`) if
the output starts at or before the input or after its end, for decryption if it starts at least sixteen bytes before the input or
after its end. -/
theorem aes_cfb_overlap_partial (va : AES.CfbVariant) (mode : Bool) (cs cs' : AES.State) (mem : List U8) (o i n : Nat) (io : Io)
    (h3 : o + (if mode then 16 else 0) ≤ i ∨ i + n ≤ o)
    (h : AES.cfbPacket va mode cs ⟨mem.drop i, mem.drop o, false⟩ n = .ok (cs', io)) :
    Ov.cfb va mode cs ⟨mem, o, i⟩ n = .ok (cs', ⟨mem.take o ++ io.out, o, i⟩) := by
  rw [AES.cfbPacket] at h
  rw [Ov.cfb]
  rw [Int.toNat_natCast] at h ⊢
  obtain ⟨v', f, h', o', i'⟩ := (Sim.start mem o i h3).cfbLoop va mode rfl (n + 1) (by omega) h
  rw [f, h'.mem_eq, o', i']

/-! ### AEGIS -/

theorem Sim.copyIn (h : Sim d n lo m0 v io) : ∀ {sz off : Nat}, lo ≤ off → off + sz ≤ n →
    AEGIS.copy v.rd8 sz off = AEGIS.copy io.rd8 sz off := by
  intro sz
  induction sz with
  | zero => intro off _ _; rfl
  | succ sz ih =>
    intro off h1 h2
    rw [AEGIS.copy, AEGIS.copy, h.rd8 h1 (by omega), ih (by omega) (by omega)]

theorem Sim.copyOut (h : Sim d n lo m0 v io) (sz off : Nat) : AEGIS.copy v.rdOut8 sz off = AEGIS.copy io.rdOut8 sz off := by
  rw [show v.rdOut8 = io.rdOut8 from funext h.rdOut8]

theorem Sim.aegisLoop (rnd : Quad → Quad → Quad) (dec : Bool) (hd : d = if dec then 0 else 16) (bound : Nat) (hb : bound + 15 ≤ n)
    (fuel : Nat) : ∀ {tmp : Nat} {cs : AEGIS.State} {v : Ov} {io : Io} {r : Nat × AEGIS.State × Io}, Sim d n tmp m0 v io → tmp ≤ n →
      AEGIS.blockLoop rnd dec bound fuel tmp cs io = .ok r →
      ∃ v', Ov.aegisLoop rnd dec bound fuel tmp cs v = .ok (r.1, r.2.1, v') ∧ Sim d n r.1 m0 v' r.2.2 ∧ v'.o = v.o ∧ v'.i = v.i ∧
        r.1 ≤ n ∧ bound ≤ r.1 := by
  have hd' : d = 0 ∨ 16 ≤ d := by cases dec <;> simp at hd <;> omega
  have hm : (!dec) = true → d ≠ 0 := by cases dec <;> simp at hd ⊢; omega
  induction fuel with
  | zero => intro tmp cs v io r _ _ e; rw [AEGIS.blockLoop] at e; cases e
  | succ fuel ih =>
    intro tmp cs v io r h hn e
    rw [AEGIS.blockLoop] at e
    rw [Ov.aegisLoop]
    by_cases hb' : tmp < bound
    · rw [if_pos hb'] at e ⊢
      obtain ⟨a, e1, e⟩ := Res.bind_eq_ok e
      obtain ⟨b, e2, e⟩ := Res.bind_eq_ok e
      obtain ⟨c, e3, e⟩ := Res.bind_eq_ok e
      obtain ⟨io1, e4, e⟩ := Res.bind_eq_ok e
      obtain ⟨reg, e5, e⟩ := Res.bind_eq_ok e
      obtain ⟨v1, v2, v3, v4, f1, f2, f3, f4, h4, o4, i4⟩ := h.four rfl (by omega) hd' e1 e2 e3 e4
      have rd : ∀ j, j + 4 ≤ 16 → v4.ctRd32 (!dec) (tmp + j) = AES.ctRd32 (!dec) io1 (tmp + j) := fun j hj =>
        h4.ctRd32 fun t => ⟨by have := hm t; split <;> omega, by omega⟩
      obtain ⟨v5, f5, h5, o5, i5, t5⟩ := ih (h4.mono (lo' := tmp + 16) (by split <;> omega)) (by omega) e
      refine ⟨v5, ?_, h5, by omega, by omega, t5⟩
      dsimp only
      rw [f1, Res.ok_bind, f2, Res.ok_bind, f3, Res.ok_bind, f4, Res.ok_bind]
      rw [show AEGIS.rdQuad (fun i => v4.ctRd32 (!dec) (tmp + i)) = AEGIS.rdQuad (fun i => AES.ctRd32 (!dec) io1 (tmp + i)) by
          rw [AEGIS.rdQuad, AEGIS.rdQuad, rd 0 (by omega), rd 4 (by omega), rd 8 (by omega), rd 12 (by omega)],
        e5, Res.ok_bind, f5]
    · rw [if_neg hb'] at e ⊢
      rw [Res.ok_inj] at e
      subst e
      exact ⟨v, rfl, h, rfl, rfl, hn, by show bound ≤ tmp; omega⟩

theorem Sim.aegisLast (rnd : Quad → Quad → Quad) (dec : Bool) (hd : d = if dec then 0 else 16) {off : Nat} {cs : AEGIS.State}
    {r : AEGIS.State × Io} (h : Sim d n off m0 v io) (hn : off ≤ n) (hn2 : n ≤ off + 15)
    (e : AEGIS.lastBlock rnd dec (n - off) off cs io = .ok r) :
    ∃ v', Ov.aegisLast rnd dec (n - off) off cs v = .ok (r.1, v') ∧ Sim d n n m0 v' r.2 ∧ v'.o = v.o ∧ v'.i = v.i := by
  have hd' : d = 0 ∨ (16 ≤ d ∧ off + (n - off) ≤ off + 16) := by cases dec <;> simp at hd <;> omega
  rw [AEGIS.lastBlock] at e
  rw [Ov.aegisLast]
  obtain ⟨before, e1, e⟩ := Res.bind_eq_ok e
  obtain ⟨⟨rest, k, off', io1⟩, e2, e⟩ := Res.bind_eq_ok e
  obtain ⟨io2, e3, e⟩ := Res.bind_eq_ok e
  obtain ⟨block, e4, e⟩ := Res.bind_eq_ok e
  rw [Res.ok_inj] at e
  subst e
  obtain ⟨v1, f1, h1, o1, i1, t1, t2⟩ := h.wordLoop _ 16 (Nat.le_refl _) (by omega) (by omega) hd' e2
  simp only at f1 h1 t1 t2
  obtain ⟨v2, f2, h2, o2, i2⟩ := h1.byteLoop _ (by split <;> omega) (by omega) (by split <;> omega) e3
  refine ⟨v2, ?_, h2.mono (by rcases hd' with hd' | hd' <;> (first | rw [if_pos hd'] | rw [if_neg (by omega), if_neg (by omega)]) <;> omega), by omega, by omega⟩
  rw [h.copyIn (Nat.le_refl _) (by omega), e1, Res.ok_bind]
  dsimp only
  rw [f1, Res.ok_bind]
  dsimp only
  rw [f2, Res.ok_bind, h2.copyOut, e4, Res.ok_bind]

theorem Sim.aegisCrypt (rnd : Quad → Quad → Quad) (dec : Bool) (hd : d = if dec then 0 else 16) (h15 : n = 0 ∨ 15 ≤ n)
    (hn : n < 2 ^ 64) {cs : AEGIS.State} {r : AEGIS.State × Io} (h : Sim d n 0 m0 v io)
    (e : AEGIS.crypt rnd dec cs io n = .ok r) :
    ∃ v', Ov.aegisCrypt rnd dec cs v n = .ok (r.1, v') ∧ Sim d n n m0 v' r.2 ∧ v'.o = v.o ∧ v'.i = v.i := by
  rw [AEGIS.crypt] at e
  rw [Ov.aegisCrypt]
  by_cases h0 : n = 0
  · rw [if_pos h0] at e ⊢
    rw [Res.ok_inj] at e
    subst e
    exact ⟨v, rfl, h.mono (by omega), rfl, rfl⟩
  · rw [if_neg h0] at e ⊢
    generalize 2 ^ 60 = fuel at e ⊢
    have hb : (n + (2 ^ 64 - 15)) % 2 ^ 64 = n - 15 := by omega
    rw [hb] at e ⊢
    obtain ⟨⟨tmp, cs1, io1⟩, e1, e⟩ := Res.bind_eq_ok e
    obtain ⟨v1, f1, h1, o1, i1, t1, t2⟩ := h.aegisLoop rnd dec hd (n - 15) (by omega) fuel (by omega) e1
    simp only at f1 h1 t1 t2 e
    dsimp only
    rw [f1, Res.ok_bind]
    dsimp only
    by_cases ht : tmp = n
    · rw [if_pos ht] at e ⊢
      rw [Res.ok_inj] at e
      subst e
      exact ⟨v1, rfl, h1.mono (by omega), o1, i1⟩
    · rw [if_neg ht] at e ⊢
      obtain ⟨v2, f2, h2, o2, i2⟩ := h1.aegisLast rnd dec hd t1 (by omega) e
      exact ⟨v2, f2, h2, by omega, by omega⟩

/-- C130, AEGIS encryption, the part that holds: the output starts at least sixteen bytes before the input, or after its end.  Array,
tag and state are as with separate copies of the two parts. -/
theorem aegis_encrypt_overlap_partial (rnd : Quad → Quad → Quad) (cs cs' : AEGIS.State) (mem : List U8) (o i n : Nat) (io : Io)
    (ad iv tag : List U8) (adlen : Nat) (h15 : n = 0 ∨ 15 ≤ n) (hn : n < 2 ^ 64) (h3 : o + 16 ≤ i ∨ i + n ≤ o)
    (h : AEGIS.encryptPacket rnd cs ⟨mem.drop i, mem.drop o, false⟩ ad iv adlen n = .ok (cs', io, tag)) :
    Ov.aegisEncrypt rnd cs ⟨mem, o, i⟩ ad iv adlen n = .ok (cs', ⟨mem.take o ++ io.out, o, i⟩, tag) := by
  rw [AEGIS.encryptPacket] at h
  rw [Ov.aegisEncrypt]
  obtain ⟨c1, e1, h⟩ := Res.bind_eq_ok h
  obtain ⟨⟨c2, io2⟩, e2, h⟩ := Res.bind_eq_ok h
  obtain ⟨v', f, h', o', i'⟩ := (Sim.start mem o i h3).aegisCrypt rnd false rfl h15 hn e2
  rw [e1, Res.ok_bind, f, Res.ok_bind]
  simp only [Res.ok_inj, Prod.mk.injEq] at h ⊢
  obtain ⟨t1, t2, t3⟩ := h
  refine ⟨t1, ?_, t3⟩
  rw [h'.mem_eq, o', i', ← t2]

/-- C130, AEGIS decryption, the part that holds: the output starts at or before the input, or after its end.  Array, tag buffer,
return value and state are as with separate copies of the two parts, whether the tag is accepted or not. -/
theorem aegis_decrypt_overlap_partial (rnd : Quad → Quad → Quad) (cs cs' : AEGIS.State) (mem : List U8) (o i n : Nat) (io : Io)
    (ad iv tag tag' : List U8) (adlen : Nat) (ret : Int) (h15 : n = 0 ∨ 15 ≤ n) (hn : n < 2 ^ 64) (h2 : o + n ≤ mem.length)
    (h3 : o ≤ i ∨ i + n ≤ o)
    (h : AEGIS.decryptPacket rnd cs ⟨mem.drop i, mem.drop o, false⟩ ad iv tag adlen n = .ok (cs', io, tag', ret)) :
    Ov.aegisDecrypt rnd cs ⟨mem, o, i⟩ ad iv tag adlen n = .ok (cs', ⟨mem.take o ++ io.out, o, i⟩, tag', ret) := by
  rw [AEGIS.decryptPacket] at h
  rw [Ov.aegisDecrypt]
  obtain ⟨c1, e1, h⟩ := Res.bind_eq_ok h
  obtain ⟨⟨c2, io2⟩, e2, h⟩ := Res.bind_eq_ok h
  obtain ⟨v', f, h', o', i'⟩ := (Sim.start mem o i (d := 0) h3).aegisCrypt rnd true rfl h15 hn e2
  rw [e1, Res.ok_bind, f, Res.ok_bind]
  simp only at o' i'
  have hv := h'.mem_eq
  rw [o', i'] at hv
  simp only at h ⊢
  split at h
  · rename_i ht
    rw [if_pos ht]
    obtain ⟨out, g1, h⟩ := Res.bind_eq_ok h
    obtain ⟨tg, g2, h⟩ := Res.bind_eq_ok h
    simp only [Res.ok_inj, Prod.mk.injEq] at h
    obtain ⟨t1, t2, t3, t4⟩ := h
    have hl : n ≤ io2.out.length := by
      apply Nat.le_of_not_lt
      intro hlt
      rw [Mem.wrs_oob _ _ (by simpa using hlt) (by intro e; simp at e; omega)] at g1
      cases g1
    have : Mem.wrs v'.mem v'.o (List.replicate n 0) = .ok (mem.take o ++ out) := by
      have hto : (mem.take o).length = o := by rw [List.length_take]; omega
      rw [hv]
      simp only
      have w := Mem.wrs_append (p := mem.take o) (l := io2.out) (List.replicate n 0) (by simpa using hl)
      rw [hto] at w
      rw [w, Res.ok_inj]
      have w0 := Mem.wrs_append (p := []) (l := io2.out) (List.replicate n 0) (by simpa using hl)
      rw [List.nil_append, List.length_nil, g1, Res.ok_inj, List.nil_append] at w0
      rw [w0, List.append_assoc]
    rw [this, Res.ok_bind, g2, Res.ok_bind, Res.ok_inj]
    subst t1 t2 t3 t4
    rw [o', i']
  · rename_i ht
    rw [if_neg ht]
    simp only [Res.ok_inj, Prod.mk.injEq] at h ⊢
    obtain ⟨t1, t2, t3, t4⟩ := h
    refine ⟨t1, ?_, t3, t4⟩
    rw [hv, ← t2]

/-! ### DES -/

/-- As `Sim`, for words. -/
structure SimW (n lo : Nat) (m0 : List U32) (v : OvW) (a : DES.Arrs) : Prop where
  alias : a.alias = false
  cond : v.o ≤ v.i ∨ v.i + n ≤ v.o
  out : v.mem.drop v.o = a.out
  pre : v.mem.take v.o = m0.take v.o
  inp : ∀ j, lo ≤ j → j < n → v.mem[v.i + j]? = a.inp[j]?

section
variable {n lo lo' : Nat} {m0 : List U32} {v : OvW} {a a' : DES.Arrs}

theorem SimW.mono (h : SimW n lo m0 v a) (hl : lo ≤ lo') : SimW n lo' m0 v a :=
  { h with inp := fun j h1 h2 => h.inp j (by omega) h2 }

theorem SimW.rd (h : SimW n lo m0 v a) {j : Nat} (h1 : lo ≤ j) (h2 : j < n) : v.rd j = a.rd j := by
  rw [OvW.rd, DES.Arrs.rd, h.alias, h.inp j h1 h2]; rfl

theorem SimW.wr (h : SimW n lo m0 v a) {j : Nat} {w : U32} (hj : j < lo) (e : a.wr j w = .ok a') :
    ∃ v', v.wr j w = .ok v' ∧ SimW n lo m0 v' a' ∧ v'.o = v.o ∧ v'.i = v.i := by
  rw [DES.Arrs.wr] at e
  split at e
  · rename_i hl
    rw [Res.ok_inj] at e
    subst e
    have hlen : v.o + j < v.mem.length := by
      rw [← h.out, List.length_drop] at hl; omega
    refine ⟨{ v with mem := v.mem.set (v.o + j) w }, by rw [OvW.wr, if_pos hlen], ⟨h.alias, h.cond, ?_, ?_, ?_⟩, rfl, rfl⟩
    · show (v.mem.set (v.o + j) w).drop v.o = a.out.set j w
      rw [List.drop_set, if_neg (by omega), h.out, Nat.add_sub_cancel_left]
    · show (v.mem.set (v.o + j) w).take v.o = m0.take v.o
      rw [List.take_set_of_le (by omega), h.pre]
    · intro k h1 h2
      show (v.mem.set (v.o + j) w)[v.i + k]? = a.inp[k]?
      have := h.cond
      rw [List.getElem?_set_ne (by omega), h.inp k h1 h2]
  · cases e

theorem SimW.ecbLoop (rk : List U32) (fuel : Nat) : ∀ {size j : Nat} {v : OvW} {a r : DES.Arrs}, SimW n j m0 v a →
    size % 8 = 0 → j + size / 4 = n → size < 2 ^ 64 → DES.ecbLoop rk fuel size j a = .ok r →
    ∃ v', OvW.ecbLoop rk fuel size j v = .ok v' ∧ SimW n n m0 v' r ∧ v'.o = v.o ∧ v'.i = v.i := by
  induction fuel with
  | zero => intro size j v a r _ _ _ _ e; rw [DES.ecbLoop] at e; cases e
  | succ fuel ih =>
    intro size j v a r h h8 hn h64 e
    rw [DES.ecbLoop] at e
    rw [OvW.ecbLoop]
    by_cases h0 : size > 0
    · rw [if_pos h0] at e ⊢
      obtain ⟨x, e1, e⟩ := Res.bind_eq_ok e
      obtain ⟨y, e2, e⟩ := Res.bind_eq_ok e
      obtain ⟨a1, e3, e⟩ := Res.bind_eq_ok e
      obtain ⟨a2, e4, e⟩ := Res.bind_eq_ok e
      have hs : (size + 2 ^ 64 - 8) % 2 ^ 64 = size - 8 := by omega
      rw [hs] at e ⊢
      obtain ⟨v1, f1, h1, o1, i1⟩ := (h.mono (lo' := j + 2) (by omega)).wr (by omega) e3
      obtain ⟨v2, f2, h2, o2, i2⟩ := h1.wr (by omega) e4
      obtain ⟨v3, f3, h3, o3, i3⟩ := ih h2 (by omega) (by omega) (by omega) e
      refine ⟨v3, ?_, h3, by omega, by omega⟩
      rw [h.rd (Nat.le_refl _) (by omega), e1, Res.ok_bind, h.rd (by omega) (by omega), e2, Res.ok_bind]
      dsimp only
      rw [f1, Res.ok_bind, f2, Res.ok_bind, f3]
    · rw [if_neg h0] at e ⊢
      rw [Res.ok_inj] at e
      subst e
      exact ⟨v, rfl, h.mono (by omega), rfl, rfl⟩

theorem SimW.ctrLoop (rk : List U32) (iv0 iv1 : U32) (fuel : Nat) : ∀ {iv3 : U32} {size j : Nat} {v : OvW} {a r : DES.Arrs},
    SimW n j m0 v a → size % 8 = 0 → j + size / 4 = n → size < 2 ^ 64 → DES.ctrLoop rk iv0 iv1 fuel iv3 size j a = .ok r →
    ∃ v', OvW.ctrLoop rk iv0 iv1 fuel iv3 size j v = .ok v' ∧ SimW n n m0 v' r ∧ v'.o = v.o ∧ v'.i = v.i := by
  induction fuel with
  | zero => intro iv3 size j v a r _ _ _ _ e; rw [DES.ctrLoop] at e; cases e
  | succ fuel ih =>
    intro iv3 size j v a r h h8 hn h64 e
    rw [DES.ctrLoop] at e
    rw [OvW.ctrLoop]
    by_cases h0 : size > 0
    · rw [if_pos h0] at e ⊢
      obtain ⟨x, e1, e⟩ := Res.bind_eq_ok e
      obtain ⟨a1, e3, e⟩ := Res.bind_eq_ok e
      obtain ⟨y, e2, e⟩ := Res.bind_eq_ok e
      obtain ⟨a2, e4, e⟩ := Res.bind_eq_ok e
      have hs : (size + 2 ^ 64 - 8) % 2 ^ 64 = size - 8 := by omega
      rw [hs] at e ⊢
      obtain ⟨v1, f1, h1, o1, i1⟩ := (h.mono (lo' := j + 1) (by omega)).wr (by omega) e3
      obtain ⟨v2, f2, h2, o2, i2⟩ := (h1.mono (lo' := j + 2) (by omega)).wr (by omega) e4
      obtain ⟨v3, f3, h3, o3, i3⟩ := ih h2 (by omega) (by omega) (by omega) e
      refine ⟨v3, ?_, h3, by omega, by omega⟩
      rw [h.rd (Nat.le_refl _) (by omega), e1, Res.ok_bind]
      rw [f1, Res.ok_bind, h1.rd (Nat.le_refl _) (by omega), e2, Res.ok_bind, f2, Res.ok_bind, f3]
    · rw [if_neg h0] at e ⊢
      rw [Res.ok_inj] at e
      subst e
      exact ⟨v, rfl, h.mono (by omega), rfl, rfl⟩

theorem SimW.mem_eq (h : SimW n lo m0 v a) : v = ⟨m0.take v.o ++ a.out, v.o, v.i⟩ := by
  rw [← h.pre, ← h.out, List.take_append_drop]

theorem SimW.start (mem : List U32) (o i : Nat) (h : o ≤ i ∨ i + n ≤ o) :
    SimW n 0 mem ⟨mem, o, i⟩ ⟨mem.drop i, mem.drop o, false⟩ :=
  ⟨rfl, h, rfl, rfl, fun j _ _ => by rw [List.getElem?_drop]⟩
end

/-- C130, DES, the part that holds: whole blocks, and the output starts at or before the input or after its end (offsets in
words).  Both modes. -/
theorem des_overlap_partial (rk : List U32) (mem : List U32) (o i size : Nat) (nonce : List U32) (h8 : size % 8 = 0)
    (h64 : size < 2 ^ 64) (h3 : o ≤ i ∨ i + size / 4 ≤ o) :
    (∀ a, DES.processPacketEcb rk ⟨mem.drop i, mem.drop o, false⟩ size = .ok a →
      OvW.ecb rk ⟨mem, o, i⟩ size = .ok ⟨mem.take o ++ a.out, o, i⟩) ∧
    ∀ a, DES.processPacketCtr rk ⟨mem.drop i, mem.drop o, false⟩ nonce size = .ok a →
      OvW.ctr rk ⟨mem, o, i⟩ nonce size = .ok ⟨mem.take o ++ a.out, o, i⟩ := by
  constructor
  · intro a h
    rw [DES.processPacketEcb, List.length_drop] at h
    obtain ⟨v', f, h', o', i'⟩ := (SimW.start mem o i h3).ecbLoop rk _ h8 (by omega) h64 h
    rw [OvW.ecb, f, h'.mem_eq, o', i']
  · intro a h
    rcases nonce with _ | ⟨n0, _ | ⟨n1, _ | ⟨n2, t⟩⟩⟩
    · cases h
    · cases h
    · cases h
    · rw [DES.processPacketCtr, List.length_drop] at h
      obtain ⟨v', f, h', o', i'⟩ := (SimW.start mem o i h3).ctrLoop rk _ _ _ h8 (by omega) h64 h
      rw [OvW.ctr, f, h'.mem_eq, o', i']

/-! ### Where it does not hold -/

/-- The bytes of the array after a call on overlapping buffers differ from what separate copies give. -/
def Differs {α β : Type} (sep : Res α) (ov : Res β) (io : α → Io) (v : β → Ov) (mem : List U8) (o : Nat) : Prop :=
  ∃ a b, sep = .ok a ∧ ov = .ok b ∧ (v b).mem ≠ mem.take o ++ (io a).out

theorem differs_of {α β : Type} {sep : Res α} {ov : Res β} {io : α → Io} {v : β → Ov} {mem : List U8} {o : Nat}
    (h : (match sep, ov with
      | .ok a, .ok b => decide ((v b).mem ≠ mem.take o ++ (io a).out)
      | _, _ => false) = true) : Differs sep ov io v mem o := by
  rcases sep with a | _ <;> rcases ov with b | _ <;> simp only [Bool.false_eq_true, decide_eq_true_eq] at h
  exact ⟨a, b, rfl, rfl, h⟩

/-- The bytes 0, 1, 2, … -/
def count (n : Nat) : List U8 := (List.range n).map (BitVec.ofNat 8)

set_option maxRecDepth 100000 in
/-- C130 is false for AES-CFB (portable code, all-zero key and IV).  Encryption: 32 bytes moved up by 16, as when room is made for
the IV.  Decryption: 32 bytes moved down by 8, and not moved at all. -/
theorem aes_cfb_overlap_refuted :
    let cs := AES.cfbInit (List.replicate 16 0) (List.replicate 16 0)
    let m := count 48
    Differs (AES.cfbPacket AES.portable false cs ⟨m.drop 0, m.drop 16, false⟩ 32) (Ov.cfb AES.portable false cs ⟨m, 16, 0⟩ 32)
      Prod.snd Prod.snd m 16 ∧
    Differs (AES.cfbPacket AES.portable true cs ⟨m.drop 8, m.drop 0, false⟩ 32) (Ov.cfb AES.portable true cs ⟨m, 0, 8⟩ 32)
      Prod.snd Prod.snd m 0 ∧
    Differs (AES.cfbPacket AES.portable true cs ⟨m.drop 0, m.drop 0, false⟩ 32) (Ov.cfb AES.portable true cs ⟨m, 0, 0⟩ 32)
      Prod.snd Prod.snd m 0 :=
  ⟨differs_of (by decide +kernel), differs_of (by decide +kernel), differs_of (by decide +kernel)⟩

/-- The all-zero key, loaded into an all-zero structure. -/
def aegisKey : AEGIS.State :=
  let z : Quad := ⟨0, 0, 0, 0⟩
  AEGIS.loadKey ⟨z, z, z, z, z, z⟩ (List.replicate 16 0)

/-- The 32 bytes 0, 1, 2, … encrypted with separate buffers: ciphertext and tag. -/
def aegisSealed : List U8 × List U8 :=
  match AEGIS.encryptPacket AEGIS.rndPortable aegisKey ⟨count 32, List.replicate 32 0, false⟩ [] (List.replicate 16 0) 0 32 with
  | .ok (_, io, tag) => (io.out, tag)
  | .ub _ => ([], [])

set_option maxRecDepth 100000 in
/-- C130 is false for AEGIS (portable code, all-zero key and IV, no associated data).  Encryption: 48 bytes moved down by 8, and
not moved at all.  Decryption of a correctly encrypted message, moved up by 16, as when room is made for a header: with separate
buffers it is accepted, with overlapping ones rejected. -/
theorem aegis_overlap_refuted :
    let iv : List U8 := List.replicate 16 0
    let m := count 64
    Differs (AEGIS.encryptPacket AEGIS.rndPortable aegisKey ⟨m.drop 8, m.drop 0, false⟩ [] iv 0 48)
      (Ov.aegisEncrypt AEGIS.rndPortable aegisKey ⟨m, 0, 8⟩ [] iv 0 48) (·.2.1) (·.2.1) m 0 ∧
    Differs (AEGIS.encryptPacket AEGIS.rndPortable aegisKey ⟨m.drop 0, m.drop 0, false⟩ [] iv 0 48)
      (Ov.aegisEncrypt AEGIS.rndPortable aegisKey ⟨m, 0, 0⟩ [] iv 0 48) (·.2.1) (·.2.1) m 0 ∧
    (let c := aegisSealed.1 ++ List.replicate 16 0
     ∃ s io t s' v t',
      AEGIS.decryptPacket AEGIS.rndPortable aegisKey ⟨c.drop 0, c.drop 16, false⟩ [] iv aegisSealed.2 0 32 = .ok (s, io, t, 1) ∧
      io.out = count 32 ∧
      Ov.aegisDecrypt AEGIS.rndPortable aegisKey ⟨c, 16, 0⟩ [] iv aegisSealed.2 0 32 = .ok (s', v, t', 0)) := by
  refine ⟨differs_of (by decide +kernel), differs_of (by decide +kernel), ?_⟩
  have h : (match AEGIS.decryptPacket AEGIS.rndPortable aegisKey ⟨(aegisSealed.1 ++ List.replicate 16 0).drop 0,
        (aegisSealed.1 ++ List.replicate 16 0).drop 16, false⟩ [] (List.replicate 16 0) aegisSealed.2 0 32,
      Ov.aegisDecrypt AEGIS.rndPortable aegisKey ⟨aegisSealed.1 ++ List.replicate 16 0, 16, 0⟩ [] (List.replicate 16 0)
        aegisSealed.2 0 32 with
      | .ok a, .ok b => decide (a.2.2.2 = 1 ∧ a.2.1.out = count 32 ∧ b.2.2.2 = 0)
      | _, _ => false) = true := by decide +kernel
  dsimp only
  generalize AEGIS.decryptPacket AEGIS.rndPortable aegisKey _ _ _ _ _ _ = x at h ⊢
  generalize Ov.aegisDecrypt AEGIS.rndPortable aegisKey _ _ _ _ _ _ = y at h ⊢
  rcases x with ⟨s, io, t, r⟩ | _ <;> rcases y with ⟨s', v, t', r'⟩ | _ <;>
    simp only [Bool.false_eq_true, decide_eq_true_eq] at h
  obtain ⟨h1, h2, h3⟩ := h
  subst h1 h3
  exact ⟨s, io, t, s', v, t', rfl, h2, rfl⟩

set_option maxRecDepth 100000 in
/-- C130 is false for DES in electronic-codebook mode (all-zero key), for sixteen bytes moved up by eight. -/
theorem des_ecb_overlap_refuted : ∃ rk, DES.keyScheduleEncrypt (List.replicate 8 0) = .ok rk ∧
    ∃ a v, DES.processPacketEcb rk ⟨[1, 2, 3, 4, 5, 6], [3, 4, 5, 6], false⟩ 16 = .ok a ∧
      OvW.ecb rk ⟨[1, 2, 3, 4, 5, 6], 2, 0⟩ 16 = .ok v ∧ v.mem ≠ [1, 2] ++ a.out := by
  have h : (match DES.keyScheduleEncrypt (List.replicate 8 0) with
    | .ok rk => (match DES.processPacketEcb rk ⟨[1, 2, 3, 4, 5, 6], [3, 4, 5, 6], false⟩ 16,
        OvW.ecb rk ⟨[1, 2, 3, 4, 5, 6], 2, 0⟩ 16 with
      | .ok a, .ok v => decide (v.mem ≠ [1, 2] ++ a.out)
      | _, _ => false)
    | _ => false) = true := by decide +kernel
  generalize DES.keyScheduleEncrypt (List.replicate 8 0) = k at h ⊢
  rcases k with rk | _
  · refine ⟨rk, rfl, ?_⟩
    simp only at h
    generalize DES.processPacketEcb rk _ _ = x at h ⊢
    generalize OvW.ecb rk _ _ = y at h ⊢
    rcases x with a | _ <;> rcases y with v | _ <;> simp only [Bool.false_eq_true, decide_eq_true_eq] at h
    exact ⟨a, v, rfl, rfl, h⟩
  · cases h

/-- C130 is false for DES in counter mode, for every key and nonce: of sixteen bytes moved up by eight the first eight
come back in the clear where the second block of ciphertext should be. -/
theorem des_ctr_overlap_refuted (rk : List U32) (n0 n1 n2 a b c d e f : U32) : ∃ x y,
    OvW.ctr rk ⟨[a, b, c, d, e, f], 2, 0⟩ [n0, n1, n2] 16 = .ok ⟨[a, b, x, y, a, b], 2, 0⟩ := by
  refine ⟨a ^^^ (DES.ecbBlock rk (n0, n1)).1, b ^^^ (DES.ecbBlock rk (n0, n1)).2, ?_⟩
  generalize hk : DES.ecbBlock rk (n0, n1) = k
  simp [OvW.ctr, OvW.ctrLoop, OvW.rd, OvW.wr, hk, BitVec.xor_assoc]

/-- Instances of the hypotheses: 40 bytes moved down by 16, as when an IV is removed from the front; sixteen words of DES input moved
down by two. -/
example : (0 + 16 ≤ 16 ∨ 16 + 40 ≤ 0) ∧ (15 ≤ 40) ∧ 64 % 8 = 0 ∧ (0 ≤ 2 ∨ 2 + 64 / 4 ≤ 0) := by decide

set_option maxRecDepth 100000 in
/-- AES-CFB decryption of 32 bytes moved down by 16: the array is as with separate copies. -/
example : (match AES.cfbPacket AES.portable true (AES.cfbInit (count 16) (count 16)) ⟨(count 48).drop 16, (count 48).drop 0, false⟩ 32,
      Ov.cfb AES.portable true (AES.cfbInit (count 16) (count 16)) ⟨count 48, 0, 16⟩ 32 with
    | .ok a, .ok b => decide (b.2.mem = a.2.out ∧ a.2.out ≠ count 48)
    | _, _ => false) = true := by decide +kernel

end CT.Props.OverlapBlock
