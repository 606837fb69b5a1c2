import Verif.Props.Overlap

/-!
# Stream ciphers on buffers that overlap: exactly which offsets are right (C123)

`Verif.Props.Overlap` leaves out an output that starts one to three bytes after the input.  There a word is written over the
beginning of the next one.  With it, the offsets for which every array is encrypted correctly are known exactly.  (Alignment,
which on such offsets is violated for one of the two pointers, is the subject of C138.)
-/

namespace CT.Props.Overlap
open CT.Props.Stream (chacha chacha_isStream)

/-- What is in the array at address `a` has no influence. -/
def Blind {σ : Type} (fo : OvFn σ) (s : σ) (o i n len a : Nat) : Prop :=
  ∀ (mem : List U8) (x : U8), mem.length = len → fo s ⟨mem.set a x, o, i⟩ n = fo s ⟨mem, o, i⟩ n

section
variable {σ : Type} {f : PacketFn σ} {fo : OvFn σ} {Inv : σ → Prop} {ok : Nat → Prop} {ks : σ → Nat → List U8}
  {next : σ → Nat → σ}

/-- If a byte of the message has no influence, some array is encrypted wrongly. -/
theorem wrong_blind (h : IsStream f Inv ok ks next) {s : σ} (hs : Inv s) {n : Nat} (hn : ok n) (o i a : Nat) (h3 : i ≤ a)
    (h4 : a < i + n) (len : Nat) (hlen : o + n ≤ len) (hlen' : i + n ≤ len) (hb : Blind fo s o i n len a) :
    ¬ ∀ mem : List U8, mem.length = len → Right f fo s mem o i n := by
  intro hall
  have hl : (List.replicate len (0 : U8)).length = len := List.length_replicate
  have hl' : ((List.replicate len (0 : U8)).set a 1).length = len := by rw [List.length_set, hl]
  obtain ⟨s1, c1, l1, f1, g1⟩ := hall _ hl
  obtain ⟨s2, c2, l2, f2, g2⟩ := hall _ hl'
  rw [hb _ _ hl, g1, Res.ok_inj, Prod.mk.injEq, Ov.mk.injEq] at g2
  have hc : c1 = c2 := by
    have := congrArg (fun l => (l.drop o).take n) g2.2.1
    simp only [List.append_assoc] at this
    rw [List.drop_left' (by rw [List.length_take, hl]; omega), List.drop_left' (by rw [List.length_take, hl']; omega),
      List.take_left' l1, List.take_left' l2] at this
    exact this
  have hn' : ∀ m : List U8, m.length = len → ((m.drop i).take n).length = n := fun m hm => by
    rw [List.length_take, List.length_drop]; omega
  have e1 := h.single (s := s) (((List.replicate len 0).drop i).take n) hs (by rw [hn' _ hl]; exact hn)
  have e2 := h.single (s := s) ((((List.replicate len 0).set a 1).drop i).take n) hs (by rw [hn' _ hl']; exact hn)
  rw [hn' _ hl, f1, Res.ok_inj, Prod.mk.injEq, Io.mk.injEq] at e1
  rw [hn' _ hl', f2, Res.ok_inj, Prod.mk.injEq, Io.mk.injEq] at e2
  obtain ⟨-, hk, -⟩ := h s n hs hn
  have e := e1.2.2.1.symm.trans (hc.trans e2.2.2.1)
  have e' := congrArg (xorBytes · (ks s n)) e
  beta_reduce at e'
  rw [xorBytes_xorBytes _ _ (by rw [hn' _ hl, hk]), xorBytes_xorBytes _ _ (by rw [hn' _ hl', hk])] at e'
  have := congrArg (fun l => l[a - i]?) e'
  simp only [List.getElem?_take, if_pos (show a - i < n by omega), List.getElem?_drop, show i + (a - i) = a by omega] at this
  rw [List.getElem?_set_self (by rw [hl]; omega), List.getElem?_eq_getElem (by rw [hl]; omega), List.getElem_replicate] at this
  cases this

end

/-! ### The accesses -/

/-- A word access at the beginning. -/
theorem xor32_first (mem : List U8) (o i : Nat) (k : U32) (h1 : i + 4 ≤ mem.length) (h2 : o + 4 ≤ mem.length) :
    (⟨mem, o, i⟩ : Ov).xor32 0 k = .ok ⟨(((mem.set o (mem.getD i 0 ^^^ byteN k 0)).set (o + 1) (mem.getD (i + 1) 0 ^^^ byteN k 1)).set
      (o + 2) (mem.getD (i + 2) 0 ^^^ byteN k 2)).set (o + 3) (mem.getD (i + 3) 0 ^^^ byteN k 3), o, i⟩ := by
  obtain ⟨k0, k1, k2, k3⟩ := byteN_le32 (mem.getD i 0) (mem.getD (i + 1) 0) (mem.getD (i + 2) 0) (mem.getD (i + 3) 0)
  have hw : ∀ (u : Ov) (t : Nat) (b : U8), u.o + t < u.mem.length → u.wr8 t b = .ok { u with mem := u.mem.set (u.o + t) b } :=
    fun u t b h => by rw [Ov.wr8, if_pos h]
  rw [Ov.xor32, Ov.rd32, Ov.rd8_eq (by simp only; omega), Ov.rd8_eq (by simp only; omega), Ov.rd8_eq (by simp only; omega),
    Ov.rd8_eq (by simp only; omega)]
  simp only [Res.ok_bind, Res.pure_eq, Nat.zero_add, Nat.add_zero]
  rw [Ov.wr32, byteN_xor, byteN_xor, byteN_xor, byteN_xor, k0, k1, k2, k3, hw _ _ _ (by simp only; omega), Res.ok_bind,
    hw _ _ _ (by simp only [List.length_set]; omega), Res.ok_bind, hw _ _ _ (by simp only [List.length_set]; omega),
    Res.ok_bind, hw _ _ _ (by simp only [List.length_set]; omega)]
  rfl

theorem getD_set_ne (mem : List U8) (a b : Nat) (x : U8) (h : a ≠ b) : (mem.set a x).getD b 0 = mem.getD b 0 := by
  rw [List.getD_eq_getElem?_getD, List.getElem?_set_ne h, List.getD_eq_getElem?_getD]

/-- The byte after the first word, if the first word is written over it. -/
theorem xor32_blind (mem : List U8) (o i : Nat) (k : U32) (x : U8) (h1 : i + 4 ≤ mem.length) (h2 : o + 4 ≤ mem.length)
    (h3 : i < o) (h4 : o < i + 4) : (⟨mem.set (i + 4) x, o, i⟩ : Ov).xor32 0 k = (⟨mem, o, i⟩ : Ov).xor32 0 k := by
  rw [xor32_first _ _ _ _ (by rw [List.length_set]; exact h1) (by rw [List.length_set]; exact h2), xor32_first _ _ _ _ h1 h2,
    getD_set_ne _ _ _ _ (by omega), getD_set_ne _ _ _ _ (by omega), getD_set_ne _ _ _ _ (by omega), getD_set_ne _ _ _ _ (by omega)]
  congr 2
  apply List.ext_getElem?
  intro j
  have hj : i + 4 = o + 1 ∨ i + 4 = o + 2 ∨ i + 4 = o + 3 := by omega
  simp only [List.getElem?_set, List.length_set]
  by_cases e : i + 4 = j
  · by_cases e1 : o + 3 = j
    · simp only [if_pos e1]
    by_cases e2 : o + 2 = j
    · simp only [if_neg e1, if_pos e2]
    by_cases e3 : o + 1 = j
    · simp only [if_neg e1, if_neg e2, if_pos e3]
    omega
  · simp only [if_neg e]

/-- The byte at the output pointer, if a byte is written there first. -/
theorem xor8_blind (mem : List U8) (o i : Nat) (k x : U8) (h1 : i < mem.length) (h3 : i < o) :
    (⟨mem.set o x, o, i⟩ : Ov).xor8 0 k = (⟨mem, o, i⟩ : Ov).xor8 0 k := by
  rw [Ov.xor8, Ov.xor8, Ov.rd8_eq (by simp only [List.length_set]; omega), Ov.rd8_eq (by simp only; omega), Res.ok_bind, Res.ok_bind, Ov.wr8, Ov.wr8]
  simp only [List.length_set, Nat.add_zero, List.set_set, getD_set_ne _ _ _ _ (show o ≠ i by omega)]

/-! ### The loops -/

theorem wordLoop_blind (K : List U32) (fuel n : Nat) (idx : Nat) (v v' : Ov) (hn : 3 < n) (h : ∀ k, v.xor32 0 k = v'.xor32 0 k) :
    Ov.wordLoop K (fuel + 1) n idx 0 v = Ov.wordLoop K (fuel + 1) n idx 0 v' := by
  rw [Ov.wordLoop, Ov.wordLoop, if_pos hn, if_pos hn]
  simp only [h]

theorem wordLoop_none (K : List U32) (fuel n : Nat) (idx off : Nat) (v : Ov) (hn : ¬ 3 < n) :
    Ov.wordLoop K (fuel + 1) n idx off v = .ok (n, idx, off, v) := by
  rw [Ov.wordLoop, if_neg hn]

theorem byteLoop_blind (K : List U32) (n j : Nat) (v v' : Ov) (hn : 0 < n) (h : ∀ k, v.xor8 0 k = v'.xor8 0 k) :
    Ov.byteLoop K n j 0 v = Ov.byteLoop K n j 0 v' := by
  obtain ⟨m, rfl⟩ : ∃ m, n = m + 1 := ⟨n - 1, by omega⟩
  rw [Ov.byteLoop, Ov.byteLoop]
  simp only [h]

theorem blockLoop_blind {σ : Type} (blk : σ → σ × Quad) (fuel n : Nat) (s : σ) (v v' : Ov) (hn : 15 < n)
    (h : ∀ k, v.xor32 0 k = v'.xor32 0 k) : Ov.blockLoop blk (fuel + 1) n 0 s v = Ov.blockLoop blk (fuel + 1) n 0 s v' := by
  rw [Ov.blockLoop, Ov.blockLoop, if_pos hn, if_pos hn]
  simp only [h]

theorem blockLoop_none {σ : Type} (blk : σ → σ × Quad) (fuel n off : Nat) (s : σ) (v : Ov) (hn : ¬ 15 < n) :
    Ov.blockLoop blk (fuel + 1) n off s v = .ok (n, off, s, v) := by
  rw [Ov.blockLoop, if_neg hn]

/-! ### Four bytes -/

/-- A packet of four bytes is one word access. -/
def OneWord {σ : Type} (fo : OvFn σ) (s : σ) : Prop :=
  ∃ K st, ∀ v : Ov, fo s v 4 = (ksGet K 0 >>= fun k => v.xor32 0 k >>= fun v => .ok (st, v))

theorem xor32_whole (mem : List U8) (o i : Nat) (k : U32) (h1 : i + 4 ≤ mem.length) (h2 : o + 4 ≤ mem.length) :
    (⟨mem, o, i⟩ : Ov).xor32 0 k = .ok ⟨mem.take o ++ xorBytes ((mem.drop i).take 4) (bytesLE32 k) ++ mem.drop (o + 4), o, i⟩ := by
  rw [xor32_first _ _ _ _ h1 h2]
  congr 2
  have e : (mem.drop i).take 4 = [mem.getD i 0, mem.getD (i + 1) 0, mem.getD (i + 2) 0, mem.getD (i + 3) 0] := by
    have g (t : Nat) (ht : t < 4) : mem.getD (i + t) 0 = mem[i + t]'(by omega) := by
      rw [List.getD_eq_getElem?_getD, List.getElem?_eq_getElem (by omega)]; rfl
    rw [List.drop_eq_getElem_cons (by omega), List.drop_eq_getElem_cons (by omega), List.drop_eq_getElem_cons (by omega),
      List.drop_eq_getElem_cons (by omega), g 1 (by omega), g 2 (by omega), g 3 (by omega), show mem.getD i 0 = mem[i] from g 0 (by omega)]
    rfl
  rw [e]
  apply List.ext_getElem?
  intro j
  have hx (a b c d : U8) : xorBytes [a, b, c, d] (bytesLE32 k) = [a ^^^ byteN k 0, b ^^^ byteN k 1, c ^^^ byteN k 2, d ^^^ byteN k 3] := rfl
  have ht : (mem.take o).length = o := by rw [List.length_take]; omega
  rw [hx, List.append_assoc]
  simp only [List.getElem?_set, List.length_set]
  by_cases ha : j < o
  · rw [if_neg (by omega), if_neg (by omega), if_neg (by omega), if_neg (by omega), List.getElem?_append_left (by omega),
      List.getElem?_take, if_pos ha]
  · rw [List.getElem?_append_right (by omega), ht]
    by_cases hb : j < o + 4
    · rw [List.getElem?_append_left (by simp only [List.length_cons, List.length_nil]; omega)]
      have hj : j = o ∨ j = o + 1 ∨ j = o + 2 ∨ j = o + 3 := by omega
      rcases hj with rfl | rfl | rfl | rfl
      · rw [if_neg (by omega), if_neg (by omega), if_neg (by omega), if_pos rfl, if_pos (by omega), Nat.sub_self]; rfl
      · rw [if_neg (by omega), if_neg (by omega), if_pos rfl, if_pos (by omega), Nat.add_sub_cancel_left]; rfl
      · rw [if_neg (by omega), if_pos rfl, if_pos (by omega), Nat.add_sub_cancel_left]; rfl
      · rw [if_pos rfl, if_pos (by omega), Nat.add_sub_cancel_left]; rfl
    · rw [if_neg (by omega), if_neg (by omega), if_neg (by omega), if_neg (by omega), List.getElem?_append_right
        (by simp only [List.length_cons, List.length_nil]; omega), List.getElem?_drop]
      congr 1
      simp only [List.length_cons, List.length_nil]
      omega

section
variable {σ : Type} {f : PacketFn σ} {fo : OvFn σ} {Inv : σ → Prop} {ok : Nat → Prop} {ks : σ → Nat → List U8}
  {next : σ → Nat → σ}

theorem four_of (h : IsStream f Inv ok ks next) (ho : Steps fo Inv ok ks next) {s : σ} (hs : Inv s) (hn : ok 4)
    (hw : OneWord fo s) (mem : List U8) (o i : Nat) (h1 : i + 4 ≤ mem.length) (h2 : o + 4 ≤ mem.length) :
    Right f fo s mem o i 4 := by
  obtain ⟨K, st, hw⟩ := hw
  obtain ⟨s1, c1, l1, f1, g1⟩ := right_of h ho hs hn (mem.drop i |>.take 4 |>.append [0, 0, 0, 0]) 4 0
    (by simp) (by simp; omega) (by omega)
  have hl : ((mem.drop i).take 4).length = 4 := by rw [List.length_take, List.length_drop]; omega
  generalize hm : (mem.drop i).take 4 = m at *
  have ha : m.append [0, 0, 0, 0] = m ++ [0, 0, 0, 0] := rfl
  have hd : ((m ++ [0, 0, 0, 0]).drop 0).take 4 = m := by
    rw [List.drop_zero, List.take_left' hl]
  rw [ha] at f1 g1
  rw [hd] at f1
  rw [hw] at g1
  obtain ⟨k, hk, g1⟩ := Res.bind_eq_ok g1
  rw [xor32_whole _ _ _ _ (by rw [List.length_append, hl]; simp) (by rw [List.length_append, hl]; simp), Res.ok_bind, Res.ok_inj,
    Prod.mk.injEq, Ov.mk.injEq, hd] at g1
  have hc : xorBytes m (bytesLE32 k) = c1 := by
    have := g1.2.1
    rw [List.append_assoc, List.append_assoc] at this
    exact (List.append_inj (List.append_cancel_left this) (by rw [xorBytes_length, hl, bytesLE32_length, l1]; rfl)).1
  refine ⟨s1, c1, l1, ?_, ?_⟩
  · rw [hm]; exact f1
  · rw [hw, hk, Res.ok_bind, xor32_whole _ _ _ _ h1 h2, hm, hc, g1.1]
    rfl

/-- Offsets for which every array is encrypted correctly, for a packet function whose packets of four bytes are one word. -/
theorem exact_of (h : IsStream f Inv ok ks next) (ho : Steps fo Inv ok ks next) {s : σ} (hs : Inv s) {n : Nat} (hn : ok n)
    (o i len : Nat) (h1 : i + n ≤ len) (h2 : o + n ≤ len) (hw : OneWord fo s)
    (hb : i < o → o < i + 4 → o < i + n → n ≠ 4 → ∃ a, i ≤ a ∧ a < i + n ∧ Blind fo s o i n len a) :
    (∀ mem : List U8, mem.length = len → Right f fo s mem o i n) ↔ o ≤ i ∨ i + n ≤ o ∨ n = 4 := by
  constructor
  · intro hall
    apply Decidable.byContradiction
    intro hne
    by_cases h3 : i + 4 ≤ o
    · exact wrong_of h ho hs hn o i h3 (by omega) len h2 hall
    · have b1 : i < o := by omega
      have b2 : o < i + 4 := by omega
      have b3 : o < i + n := by omega
      have b4 : n ≠ 4 := by omega
      obtain ⟨a, a1, a2, ab⟩ := hb b1 b2 b3 b4
      exact wrong_blind h hs hn o i a a1 a2 len h2 h1 ab hall
  · intro hor mem hm
    subst hm
    by_cases h4 : n = 4
    · subst h4
      exact four_of h ho hs hn hw mem o i h1 h2
    · exact right_of h ho hs hn mem o i h1 h2 (by clear hw hb; omega)

theorem exact_of' (h : IsStream f Inv ok ks next) (ho : Steps fo Inv ok ks next) {s : σ} (hs : Inv s) {n : Nat} (hn : ok n)
    (o i len : Nat) (h1 : i + n ≤ len) (h2 : o + n ≤ len)
    (hb : i < o → o < i + 4 → o < i + n → ∃ a, i ≤ a ∧ a < i + n ∧ Blind fo s o i n len a) :
    (∀ mem : List U8, mem.length = len → Right f fo s mem o i n) ↔ o ≤ i ∨ i + n ≤ o := by
  constructor
  · intro hall
    apply Decidable.byContradiction
    intro hne
    by_cases h3 : i + 4 ≤ o
    · exact wrong_of h ho hs hn o i h3 (by omega) len h2 hall
    · have b1 : i < o := by omega
      have b2 : o < i + 4 := by omega
      have b3 : o < i + n := by omega
      obtain ⟨a, a1, a2, ab⟩ := hb b1 b2 b3
      exact wrong_blind h hs hn o i a a1 a2 len h2 h1 ab hall
  · intro hor mem hm
    subst hm
    exact right_of h ho hs hn mem o i h1 h2 hor

end

/-! ### The ciphers -/

theorem chacha_blind (r : Nat) (cs : ChaCha.State) (n o i len : Nat) (hn : n < 2 ^ 31) (_ : i + n ≤ len) (h2 : o + n ≤ len) (h3 : i < o)
    (h4 : o < i + 4) (h5 : o < i + n) (h6 : n ≠ 4) : ∃ a, i ≤ a ∧ a < i + n ∧ Blind (chachaOv r) cs o i n len a := by
  have hi : ((BitVec.ofNat 64 n).setWidth 32).toInt.toNat = n := by
    rw [BitVec.toInt_eq_toNat_of_lt (by simp; omega)]; simp; omega
  by_cases hb : 3 < n
  · refine ⟨i + 4, by omega, by omega, fun mem x hm => ?_⟩
    simp only [chachaOv, Ov.chacha, hi]
    rw [wordLoop_blind _ _ _ _ _ ⟨mem, o, i⟩ hb fun k => xor32_blind mem o i k x (by omega) (by omega) h3 h4]
  · refine ⟨o, by omega, by omega, fun mem x hm => ?_⟩
    simp only [chachaOv, Ov.chacha, hi]
    rw [wordLoop_none _ _ _ _ _ _ hb, wordLoop_none _ _ _ _ _ _ hb]
    simp only [Res.ok_bind]
    rw [byteLoop_blind _ _ _ _ ⟨mem, o, i⟩ (by omega) fun k => xor8_blind mem o i k x (by omega) h3]

theorem chacha_oneWord (r : Nat) (cs : ChaCha.State) : OneWord (chachaOv r) cs := by
  refine ⟨(ChaCha.ksLoop r (((4 + 3) / 4 + 15) / 16) cs 1 []).2, (ChaCha.ksLoop r (((4 + 3) / 4 + 15) / 16) cs 1 []).1, fun v => ?_⟩
  have hi : ((BitVec.ofNat 64 4).setWidth 32).toInt.toNat = 4 := by decide
  have hz : (BitVec.ofNat 64 4).toNat = 4 := by decide
  simp only [chachaOv, Ov.chacha, hi, hz]
  rw [if_neg (by decide), if_neg (by decide), Ov.wordLoop, if_pos (by decide)]
  cases ksGet (ChaCha.ksLoop r (((4 + 3) / 4 + 15) / 16) cs 1 []).2 0 with
  | ub w => rfl
  | ok k =>
    simp only [Res.ok_bind]
    cases v.xor32 0 k with
    | ub w => rfl
    | ok v => simp only [Res.ok_bind]; rfl

/-- C123 for ChaCha, exactly: all arrays of a given length are encrypted correctly if and only if the output starts at or
before the input, or after its end, or the packet is a single word. -/
theorem chacha_overlap_exact (rounds : Nat) (key nonce : List U8) (hk : key.length = 32) (hv : nonce.length = 12)
    (cs : ChaCha.State) (hcs : ChaCha.History rounds key nonce cs) (n : Nat) (hn : n < 2 ^ 31) (o i len : Nat)
    (h1 : i + n ≤ len) (h2 : o + n ≤ len) :
    (∀ mem : List U8, mem.length = len → Right (chacha rounds) (chachaOv rounds) cs mem o i n) ↔ o ≤ i ∨ i + n ≤ o ∨ n = 4 :=
  exact_of (chacha_isStream rounds key nonce) (chacha_steps rounds key nonce) (hcs.keyed hk hv) hn o i len h1 h2
    (chacha_oneWord rounds cs) fun a b c d => chacha_blind rounds cs n o i len hn h1 h2 a b c d

example : ¬ ∀ mem : List U8, mem.length = 9 → Right (chacha 20) (chachaOv 20) (ChaCha.init (List.replicate 32 7) (List.replicate 12 9)) mem 1 0 8 :=
  fun h => absurd ((chacha_overlap_exact 20 _ _ (by decide) (by decide) _ .init 8 (by decide) 1 0 9 (by decide) (by decide)).mp h) (by decide)

theorem hc128_blind (cs : HC128.State) (n o i len : Nat) (hn : n ≤ 2 ^ 33 - 8) (_ : i + n ≤ len) (h2 : o + n ≤ len) (h3 : i < o)
    (h4 : o < i + 4) (h5 : o < i + n) (h6 : n ≠ 4) : ∃ a, i ≤ a ∧ a < i + n ∧ Blind Ov.hc128 cs o i n len a := by
  have a1 : ¬ n < 1 := by omega
  have a2 : ¬ 2 ^ 31 - 1 ≤ (n - 1) / 4 := by omega
  by_cases hb : 3 < n
  · refine ⟨i + 4, by omega, by omega, fun mem x hm => ?_⟩
    simp only [Ov.hc128, if_neg a1, if_neg a2]
    rw [wordLoop_blind _ _ _ _ _ ⟨mem, o, i⟩ hb fun k => xor32_blind mem o i k x (by omega) (by omega) h3 h4]
  · refine ⟨o, by omega, by omega, fun mem x hm => ?_⟩
    simp only [Ov.hc128, if_neg a1, if_neg a2]
    rw [wordLoop_none _ _ _ _ _ _ hb, wordLoop_none _ _ _ _ _ _ hb]
    simp only [Res.ok_bind]
    rw [byteLoop_blind _ _ _ _ ⟨mem, o, i⟩ (by omega) fun k => xor8_blind mem o i k x (by omega) h3]

theorem hc128_oneWord (cs : HC128.State) : OneWord Ov.hc128 cs := by
  refine ⟨(HC128.gen ((4 - 1) / 4 + 1) 0 cs).2, (HC128.gen ((4 - 1) / 4 + 1) 0 cs).1, fun v => ?_⟩
  rw [Ov.hc128, if_neg (by decide), if_neg (by decide)]
  simp only
  rw [Ov.wordLoop, if_pos (by decide)]
  cases ksGet (HC128.gen ((4 - 1) / 4 + 1) 0 cs).2 0 with
  | ub w => rfl
  | ok k =>
    simp only [Res.ok_bind]
    cases v.xor32 0 k with
    | ub w => rfl
    | ok v => simp only [Res.ok_bind]; rfl

/-- C123 for HC-128, exactly. -/
theorem hc128_overlap_exact (cs : HC128.State) (n : Nat) (hn : n ≤ 2 ^ 33 - 8) (o i len : Nat) (h1 : i + n ≤ len)
    (h2 : o + n ≤ len) :
    (∀ mem : List U8, mem.length = len → Right HC128.processPacket Ov.hc128 cs mem o i n) ↔ o ≤ i ∨ i + n ≤ o ∨ n = 4 :=
  exact_of HC128.isStream hc128_steps trivial hn o i len h1 h2 (hc128_oneWord cs)
    fun a b c d => hc128_blind cs n o i len hn h1 h2 a b c d

example (cs : HC128.State) : ¬ ∀ mem : List U8, mem.length = 9 → Right HC128.processPacket Ov.hc128 cs mem 1 0 8 :=
  fun h => absurd ((hc128_overlap_exact cs 8 (by decide) 1 0 9 (by decide) (by decide)).mp h) (by decide)

theorem rabbit_blind (cs : Rabbit.State) (n o i len : Nat) (h1 : i + n ≤ len) (h2 : o + n ≤ len) (h3 : i < o)
    (h4 : o < i + 4) (h5 : o < i + n) : ∃ a, i ≤ a ∧ a < i + n ∧ Blind Ov.rabbit cs o i n len a := by
  by_cases hb : 15 < n
  · refine ⟨i + 4, by omega, by omega, fun mem x hm => ?_⟩
    rw [Ov.rabbit, Ov.rabbit, blockLoop_blind _ _ _ _ _ ⟨mem, o, i⟩ hb fun k => xor32_blind mem o i k x (by omega) (by omega) h3 h4]
  · refine ⟨o, by omega, by omega, fun mem x hm => ?_⟩
    rw [Ov.rabbit, Ov.rabbit, blockLoop_none _ _ _ _ _ _ hb, blockLoop_none _ _ _ _ _ _ hb]
    simp only [Res.ok_bind]
    rw [if_pos (by omega), if_pos (by omega),
      byteLoop_blind _ _ _ _ ⟨mem, o, i⟩ (by omega) fun k => xor8_blind mem o i k x (by omega) h3]

/-- C123 for Rabbit, exactly; packets of less than a block are processed byte by byte, so a packet of four bytes is no
exception here. -/
theorem rabbit_overlap_exact (cs : Rabbit.State) (n : Nat) (o i len : Nat) (h1 : i + n ≤ len) (h2 : o + n ≤ len) :
    (∀ mem : List U8, mem.length = len → Right Rabbit.processPacket Ov.rabbit cs mem o i n) ↔ o ≤ i ∨ i + n ≤ o :=
  exact_of' Rabbit.isStream rabbit_steps trivial trivial o i len h1 h2
    fun a b c => rabbit_blind cs n o i len h1 h2 a b c

example (cs : Rabbit.State) : ¬ ∀ mem : List U8, mem.length = 9 → Right Rabbit.processPacket Ov.rabbit cs mem 1 0 8 :=
  fun h => absurd ((rabbit_overlap_exact cs 8 1 0 9 (by decide) (by decide)).mp h) (by decide)

theorem sosemanuk_blind (cs : Sosemanuk.State) (n o i len : Nat) (h1 : i + n ≤ len) (h2 : o + n ≤ len) (h3 : i < o)
    (h4 : o < i + 4) (h5 : o < i + n) (h6 : n ≠ 4) : ∃ a, i ≤ a ∧ a < i + n ∧ Blind Ov.sosemanuk cs o i n len a := by
  by_cases hc : 15 < n
  · refine ⟨i + 4, by omega, by omega, fun mem x hm => ?_⟩
    rw [Ov.sosemanuk, Ov.sosemanuk, blockLoop_blind _ _ _ _ _ ⟨mem, o, i⟩ hc fun k => xor32_blind mem o i k x (by omega) (by omega) h3 h4]
  by_cases hb : 3 < n
  · refine ⟨i + 4, by omega, by omega, fun mem x hm => ?_⟩
    rw [Ov.sosemanuk, Ov.sosemanuk, blockLoop_none _ _ _ _ _ _ hc, blockLoop_none _ _ _ _ _ _ hc]
    simp only [Res.ok_bind]
    rw [wordLoop_blind _ _ _ _ _ ⟨mem, o, i⟩ hb fun k => xor32_blind mem o i k x (by omega) (by omega) h3 h4]
  · refine ⟨o, by omega, by omega, fun mem x hm => ?_⟩
    rw [Ov.sosemanuk, Ov.sosemanuk, blockLoop_none _ _ _ _ _ _ hc, blockLoop_none _ _ _ _ _ _ hc]
    simp only [Res.ok_bind]
    rw [wordLoop_none _ _ _ _ _ _ hb, wordLoop_none _ _ _ _ _ _ hb]
    simp only [Res.ok_bind]
    rw [byteLoop_blind _ _ _ _ ⟨mem, o, i⟩ (by omega) fun k => xor8_blind mem o i k x (by omega) h3]

theorem sosemanuk_oneWord (cs : Sosemanuk.State) : OneWord Ov.sosemanuk cs := by
  refine ⟨(Sosemanuk.block cs).2.toList, (Sosemanuk.block cs).1, fun v => ?_⟩
  rw [Ov.sosemanuk, blockLoop_none _ _ _ _ _ _ (by decide)]
  simp only [Res.ok_bind]
  rw [Ov.wordLoop, if_pos (by decide)]
  cases ksGet (Sosemanuk.block cs).2.toList 0 with
  | ub w => rfl
  | ok k =>
    simp only [Res.ok_bind]
    cases v.xor32 0 k with
    | ub w => rfl
    | ok v => simp only [Res.ok_bind]; rfl

/-- C123 for Sosemanuk, exactly. -/
theorem sosemanuk_overlap_exact (cs : Sosemanuk.State) (n : Nat) (o i len : Nat) (h1 : i + n ≤ len) (h2 : o + n ≤ len) :
    (∀ mem : List U8, mem.length = len → Right Sosemanuk.processPacket Ov.sosemanuk cs mem o i n) ↔ o ≤ i ∨ i + n ≤ o ∨ n = 4 :=
  exact_of Sosemanuk.isStream sosemanuk_steps trivial trivial o i len h1 h2 (sosemanuk_oneWord cs)
    fun a b c d => sosemanuk_blind cs n o i len h1 h2 a b c d

example (cs : Sosemanuk.State) : ¬ ∀ mem : List U8, mem.length = 9 → Right Sosemanuk.processPacket Ov.sosemanuk cs mem 1 0 8 :=
  fun h => absurd ((sosemanuk_overlap_exact cs 8 1 0 9 (by decide) (by decide)).mp h) (by decide)

theorem aes_ctr_blind {σ : Type} (blk : σ → σ × Quad) (cs : σ) (n : Nat) (hn : n % 4 ≤ 1) (o i len : Nat) (_ : i + n ≤ len) (h2 : o + n ≤ len) (h3 : i < o)
    (h4 : o < i + 4) (h5 : o < i + n) (h6 : n ≠ 4) : ∃ a, i ≤ a ∧ a < i + n ∧ Blind (fun s v n => Ov.aesCtr blk s v n) cs o i n len a := by
  refine ⟨i + 4, by omega, by omega, fun mem x hm => ?_⟩
  beta_reduce
  by_cases hc : 15 < n
  · rw [Ov.aesCtr, Ov.aesCtr, Int.toNat_natCast,
      blockLoop_blind _ _ _ _ _ ⟨mem, o, i⟩ hc fun k => xor32_blind mem o i k x (by omega) (by omega) h3 h4]
  · rw [Ov.aesCtr, Ov.aesCtr, Int.toNat_natCast, blockLoop_none _ _ _ _ _ _ hc, blockLoop_none _ _ _ _ _ _ hc]
    simp only [Res.ok_bind]
    rw [if_pos (by omega), if_pos (by omega), Ov.tailLoops, Ov.tailLoops,
      wordLoop_blind _ _ _ _ _ ⟨mem, o, i⟩ (by omega) fun k => xor32_blind mem o i k x (by omega) (by omega) h3 h4]

theorem aes_ctr_oneWord {σ : Type} (blk : σ → σ × Quad) (cs : σ) : OneWord (fun s v n => Ov.aesCtr blk s v n) cs := by
  refine ⟨(blk cs).2.toList, (blk cs).1, fun v => ?_⟩
  beta_reduce
  rw [Ov.aesCtr, Int.toNat_natCast, blockLoop_none _ _ _ _ _ _ (by decide)]
  simp only [Res.ok_bind]
  rw [if_pos (by decide), Ov.tailLoops, Ov.wordLoop, if_pos (by decide)]
  cases ksGet (blk cs).2.toList 0 with
  | ub w => rfl
  | ok k =>
    simp only [Res.ok_bind]
    cases v.xor32 0 k with
    | ub w => rfl
    | ok v => simp only [Res.ok_bind]; rfl

/-- C123 for AES counter mode, exactly. -/
theorem aes_ctr_overlap_exact (enc : List U32 → Quad → Quad) (cs : AES.State) (n : Nat) (hn : n % 4 ≤ 1) (o i len : Nat)
    (h1 : i + n ≤ len) (h2 : o + n ≤ len) :
    (∀ mem : List U8, mem.length = len →
      Right (fun s io n => AES.ctrWith (AES.ctrBlk enc) s io n) (fun s v n => Ov.aesCtr (AES.ctrBlk enc) s v n) cs mem o i n) ↔
      o ≤ i ∨ i + n ≤ o ∨ n = 4 :=
  exact_of (AES.isStream (AES.ctrBlk enc)) (aes_ctr_steps (AES.ctrBlk enc)) trivial hn o i len h1 h2
    (aes_ctr_oneWord (AES.ctrBlk enc) cs) fun a b c d => aes_ctr_blind (AES.ctrBlk enc) cs n hn o i len h1 h2 a b c d

/-- A message of 20 bytes moved up by one byte: wrong for some arrays of 21 bytes. -/
example (cs : HC128.State) : ¬ ∀ mem : List U8, mem.length = 21 → Right HC128.processPacket Ov.hc128 cs mem 1 0 20 := by
  rw [hc128_overlap_exact cs 20 (by decide) 1 0 21 (by decide) (by decide)]
  decide

/-- Four bytes moved up by one: right. -/
example (cs : HC128.State) : ∀ mem : List U8, mem.length = 5 → Right HC128.processPacket Ov.hc128 cs mem 1 0 4 :=
  (hc128_overlap_exact cs 4 (by decide) 1 0 5 (by decide) (by decide)).mpr (by decide)

/-- The same with Rabbit: wrong for some arrays. -/
example (cs : Rabbit.State) : ¬ ∀ mem : List U8, mem.length = 5 → Right Rabbit.processPacket Ov.rabbit cs mem 1 0 4 := by
  rw [rabbit_overlap_exact cs 4 1 0 5 (by decide) (by decide)]
  decide

end CT.Props.Overlap
