import Verif.Props.HC128
import Verif.Props.HC128Short

/-!
# HC-128: sessions of packets of ordinary size (C154)

Every packet starts at the beginning of the tables (C20, C152).  In sessions of packets of at most 2000 bytes this ties the keystream of
each packet to that of the packet before.
-/

namespace CT.Props.HC128Packets
open CT.HC128 CT.Props.HC128Short

/-! ### One packet -/

theorem gen_keeps_low (m : Nat) : ∀ (i : Nat) (cs : State), i + m ≤ 512 → ∀ j : Fin 512, j.val < i →
    (gen m i cs).1.P.get j = cs.P.get j := by
  induction m with
  | zero => intro i cs _ j _; rfl
  | succ m ih =>
    intro i cs h j hj
    refine (ih (i + 1) (step cs i).1 (by omega) j (by omega)).trans ?_
    have h1 : i % 512 = i := Nat.mod_eq_of_lt (by omega)
    unfold step
    simp only [show i % 1024 < 512 by omega, if_true]
    rw [vget, vget, Vector.getElem_set_ne]
    omega

/-- The word with which the `j`-th word of a packet is masked. -/
def maskAt (cs : State) (j : Nat) : U32 := h cs.Q (cs.P.get (back j 12))

theorem packet_word (cs : State) (n j : Nat) (hj : j < 12) (hjn : j < n) (hn : n ≤ 500) :
    (gen n 0 cs).2.getD j 0 = maskAt cs j ^^^ (gen n 0 cs).1.P.get ⟨j, by omega⟩ ∧
    (j < 3 → (gen n 0 cs).1.P.get ⟨j, by omega⟩ = cs.P.get ⟨j, by omega⟩ +
      g1 (cs.P.get (back j 3)) (cs.P.get (back j 10)) (cs.P.get ⟨j + 1, by omega⟩)) := by
  obtain ⟨r, rfl⟩ : ∃ r, n = j + (1 + r) := ⟨n - j - 1, by omega⟩
  obtain ⟨q1, p1⟩ := gen_keeps j (by omega) j 0 cs (by omega)
  have hl := gen_length j 0 cs
  rw [gen_add, gen_add, Nat.zero_add]
  have hg : ∀ c i, gen 1 i c = ((step c i).1, [(step c i).2]) := fun _ _ => rfl
  rw [hg]
  generalize (gen j 0 cs).1 = c1 at *
  generalize (gen j 0 cs).2 = ws at *
  have h1 : j % 512 = j := Nat.mod_eq_of_lt (by omega)
  have b12 : j < (back j 12).val := by simp only [back]; omega
  have hs : step c1 j = (⟨c1.P.set j (feed g1 c1.P ⟨j, by omega⟩) (by omega), c1.Q⟩, maskAt cs j ^^^ feed g1 c1.P ⟨j, by omega⟩) := by
    unfold step
    simp only [h1, if_pos (show j % 1024 < 512 by omega)]
    rw [vget, vget, Vector.getElem_set_self, Vector.getElem_set_ne _ _ (by omega), ← vget, p1 _ (by omega), q1]
    rfl
  have hk : (gen r (j + 1) (step c1 j).1).1.P.get ⟨j, by omega⟩ = feed g1 c1.P ⟨j, by omega⟩ := by
    rw [gen_keeps_low r (j + 1) _ (by omega) _ (by simp), hs]
    show (c1.P.set j _ (by omega)).get ⟨j, by omega⟩ = _
    rw [vget, Vector.getElem_set_self]
  refine ⟨?_, fun h3 => ?_⟩
  · show (ws ++ ([(step c1 j).2] ++ (gen r (j + 1) (step c1 j).1).2)).getD j 0 = maskAt cs j ^^^
      (gen r (j + 1) (step c1 j).1).1.P.get ⟨j, by omega⟩
    rw [hk, List.getD_eq_getElem?_getD, List.getElem?_append_right (by omega), hl, Nat.sub_self]
    show (step c1 j).2 = _
    rw [hs]
  · show (gen r (j + 1) (step c1 j).1).1.P.get ⟨j, by omega⟩ = _
    rw [hk]
    have b3 : j ≤ (back j 3).val := by simp only [back]; omega
    have b10 : j ≤ (back j 10).val := by simp only [back]; omega
    have b511 : back j 511 = ⟨j + 1, by omega⟩ := Fin.ext (by simp only [back]; omega)
    unfold feed
    show c1.P.get ⟨j, _⟩ + g1 (c1.P.get (back j 3)) (c1.P.get (back j 10)) (c1.P.get (back j 511)) = _
    rw [b511, p1 ⟨j, _⟩ (Nat.le_refl _), p1 (back j 3) b3, p1 (back j 10) b10, p1 ⟨j + 1, _⟩ (Nat.le_succ _)]

/-! ### The relation of two packets -/

/-- The constants of a session. -/
def constD (cs : State) (j : Nat) : U32 := rotr32 (cs.P.get (back j 3)) 10 ^^^ rotr32 (maskAt cs (j + 1)) 23

/-- The constants of a session. -/
def constE (cs : State) (j : Nat) : U32 := rotr32 (cs.P.get (back j 10)) 8

theorem rotr32_xor (x y : U32) (n : Nat) : rotr32 (x ^^^ y) n = rotr32 x n ^^^ rotr32 y n := by
  apply BitVec.eq_of_getLsbD_eq
  intro i hi
  simp only [rotr32, BitVec.getLsbD_or, BitVec.getLsbD_xor, BitVec.getLsbD_ushiftRight, BitVec.getLsbD_shiftLeft]
  by_cases h : i < 32 - n
  · simp [h]
  · have : 32 ≤ n + i := by omega
    simp [BitVec.getLsbD_of_ge _ _ this, hi, h]

theorem const_next (cs : State) (n j : Nat) (hn : n ≤ 500) (hj : j < 3) :
    maskAt (gen n 0 cs).1 j = maskAt cs j ∧ constD (gen n 0 cs).1 j = constD cs j ∧ constE (gen n 0 cs).1 j = constE cs j := by
  obtain ⟨q, p⟩ := gen_keeps n (by omega) n 0 cs (by omega)
  have b12 : ∀ i, i < 12 → n ≤ (back i 12).val := by intro i hi; simp only [back]; omega
  have b3 : n ≤ (back j 3).val := by simp only [back]; omega
  have b10 : n ≤ (back j 10).val := by simp only [back]; omega
  unfold constD constE maskAt
  rw [q, p _ (b12 j (by omega)), p _ (b12 (j + 1) (by omega)), p _ b3, p _ b10]
  exact ⟨rfl, rfl, rfl⟩

theorem next_word (cs : State) (n n' j : Nat) (hj : j < 3) (h1 : j + 2 ≤ n) (h2 : n ≤ 500) (h3 : j + 1 ≤ n') (h4 : n' ≤ 500) :
    (gen n' 0 (gen n 0 cs).1).2.getD j 0 = maskAt cs j ^^^ (((gen n 0 cs).2.getD j 0 ^^^ maskAt cs j) +
      (constD cs j ^^^ rotr32 ((gen n 0 cs).2.getD (j + 1) 0) 23) + constE cs j) := by
  obtain ⟨w1, -⟩ := packet_word cs n j (by omega) (by omega) h2
  obtain ⟨w2, -⟩ := packet_word cs n (j + 1) (by omega) (by omega) h2
  obtain ⟨w3, w4⟩ := packet_word (gen n 0 cs).1 n' j (by omega) (by omega) h4
  obtain ⟨c1, -, -⟩ := const_next cs n j h2 hj
  obtain ⟨q, p⟩ := gen_keeps n (by omega) n 0 cs (by omega)
  have b3 : n ≤ (back j 3).val := by simp only [back]; omega
  have b10 : n ≤ (back j 10).val := by simp only [back]; omega
  rw [w3, w4 hj, c1, w1, w2, p _ b3, p _ b10]
  generalize (gen n 0 cs).1.P.get ⟨j, by omega⟩ = a
  generalize (gen n 0 cs).1.P.get ⟨j + 1, by omega⟩ = b
  unfold constD constE g1
  rw [rotr32_xor (maskAt cs (j + 1)) b]
  generalize rotr32 (maskAt cs (j + 1)) 23 = m
  generalize rotr32 b 23 = b'
  rw [BitVec.xor_comm (maskAt cs j) a, BitVec.xor_assoc a, BitVec.xor_self, BitVec.xor_zero, BitVec.xor_assoc _ m, ← BitVec.xor_assoc m m,
    BitVec.xor_self, BitVec.zero_xor, BitVec.add_assoc]

/-! ### Sessions -/

/-- Keystream word `i` of packet `t` of a session. -/
def wordAt : State → List (List U8) → Nat → Nat → U32
  | _, [], _, _ => 0
  | cs, p :: _, 0, i => (gen ((p.length + 3) / 4) 0 cs).2.getD i 0
  | cs, p :: ps, t + 1, i => wordAt (pktNext cs p.length) ps t i

theorem words_block : ∀ (ws : List U32) (i : Nat), i < ws.length → ((wordsToBytesLE ws).drop (4 * i)).take 4 = bytesLE32 (ws.getD i 0)
  | [], _, h => absurd h (by simp)
  | w :: ws, 0, _ => by
    rw [wordsToBytesLE_cons, Nat.mul_zero, List.drop_zero, List.take_left' (bytesLE32_length w)]
    rfl
  | w :: ws, i + 1, h => by
    rw [wordsToBytesLE_cons, show 4 * (i + 1) = 4 + 4 * i by omega, ← List.drop_drop, List.drop_left' (bytesLE32_length w),
      words_block ws i (by simpa using h)]
    rfl

theorem session_words : ∀ (ps : List (List U8)) (cs : State), (∀ p ∈ ps, p.length ≤ 2000) →
    ∃ s' out, runAll processPacket cs ps = .ok (s', out) ∧ out.length = ps.length ∧
      ∀ t i, t < ps.length → 4 * (i + 1) ≤ (ps.getD t []).length →
        ((out.getD t []).drop (4 * i)).take 4 = xorBytes (((ps.getD t []).drop (4 * i)).take 4) (bytesLE32 (wordAt cs ps t i))
  | [], cs, _ => ⟨cs, [], rfl, rfl, fun t i h => absurd h (by simp)⟩
  | p :: ps, cs, hp => by
    have hl := hp p (by simp)
    obtain ⟨s', out, ho, hlen, hx⟩ := session_words ps (pktNext cs p.length) (fun x hx => hp x (by simp [hx]))
    refine ⟨s', xorBytes p (pktKs cs p.length) :: out, ?_, by simp [hlen], ?_⟩
    · simp only [runAll, isStream.single p trivial (show p.length ≤ 2 ^ 33 - 8 by omega), Res.ok_bind, ho, Res.pure_eq]
    · intro t i ht hi
      cases t with
      | zero =>
        have hi' : 4 * (i + 1) ≤ p.length := hi
        show ((xorBytes p (pktKs cs p.length)).drop _).take 4 = xorBytes ((p.drop _).take 4) (bytesLE32 ((gen ((p.length + 3) / 4) 0 cs).2.getD i 0))
        rw [← words_block _ i (by rw [gen_length]; omega)]
        unfold xorBytes pktKs
        rw [List.drop_zipWith, List.take_zipWith, List.drop_take, List.take_take, Nat.min_eq_left (by omega)]
      | succ t => exact hx t i (by simpa using ht) hi

theorem session_next (j : Nat) (hj : j < 3) : ∀ (ps : List (List U8)) (cs : State), (∀ p ∈ ps, 4 * (j + 2) ≤ p.length ∧ p.length ≤ 2000) →
    ∀ t, t + 1 < ps.length → wordAt cs ps (t + 1) j = maskAt cs j ^^^ ((wordAt cs ps t j ^^^ maskAt cs j) +
      (constD cs j ^^^ rotr32 (wordAt cs ps t (j + 1)) 23) + constE cs j)
  | [], _, _, _, h => absurd h (by simp)
  | [_], _, _, _, h => absurd h (by simp)
  | p :: p' :: ps, cs, hp, t, h => by
    have h1 := hp p (by simp)
    have h2 := hp p' (by simp)
    cases t with
    | zero => exact next_word cs _ _ j hj (by omega) (by omega) (by omega) (by omega)
    | succ t =>
      have ih := session_next j hj (p' :: ps) (pktNext cs p.length) (fun x hx => hp x (by simp at hx ⊢; exact Or.inr hx)) t (by simpa using h)
      obtain ⟨c1, c2, c3⟩ := const_next cs ((p.length + 3) / 4) j (by omega) hj
      rw [show maskAt (pktNext cs p.length) j = maskAt cs j from c1, show constD (pktNext cs p.length) j = constD cs j from c2,
        show constE (pktNext cs p.length) j = constE cs j from c3] at ih
      exact ih

/-- **C154 is false:** in every session of packets of at most 2000 bytes, and at least `4 * (j + 2)`, keystream word `j` (`j` at most two)
of each packet is a function of words `j` and `j + 1` of the packet before and of three words that stay the same during the session. -/
theorem hc128_packets_predict (j : Nat) (hj : j < 3) (ps : List (List U8)) (cs : State)
    (hp : ∀ p ∈ ps, 4 * (j + 2) ≤ p.length ∧ p.length ≤ 2000) :
    ∃ (s' : State) (out : List (List U8)) (w : Nat → Nat → U32) (H D E : U32), runAll processPacket cs ps = .ok (s', out) ∧
      out.length = ps.length ∧
      (∀ t i, t < ps.length → 4 * (i + 1) ≤ (ps.getD t []).length →
        ((out.getD t []).drop (4 * i)).take 4 = xorBytes (((ps.getD t []).drop (4 * i)).take 4) (bytesLE32 (w t i))) ∧
      ∀ t, t + 1 < ps.length → w (t + 1) j = H ^^^ ((w t j ^^^ H) + (D ^^^ rotr32 (w t (j + 1)) 23) + E) := by
  obtain ⟨s', out, h1, h2, h3⟩ := session_words ps cs (fun p h => (hp p h).2)
  exact ⟨s', out, wordAt cs ps, _, _, _, h1, h2, h3, session_next j hj ps cs hp⟩

example := hc128_packets_predict 2 (by decide) [List.replicate 16 1, List.replicate 2000 2, List.replicate 100 3]
  (init (List.replicate 16 1) (List.replicate 16 2)) (by simp only [List.mem_cons, List.not_mem_nil, or_false, forall_eq_or_imp, forall_eq, List.length_replicate]; omega)

/-! ### What known packets tell -/

theorem low_bit (H D E x y : U32) : (H ^^^ ((x ^^^ H) + (D ^^^ rotr32 y 23) + E)).getLsbD 0 =
    Bool.xor (Bool.xor (x.getLsbD 0) (y.getLsbD 23)) (Bool.xor (D.getLsbD 0) (E.getLsbD 0)) := by
  have hz : ∀ a b : U32, (a + b).getLsbD 0 = Bool.xor (a.getLsbD 0) (b.getLsbD 0) := by
    intro a b
    rw [BitVec.getLsbD_add (by decide), BitVec.carry_zero, Bool.xor_false]
  have hr : (rotr32 y 23).getLsbD 0 = y.getLsbD 23 := by
    simp only [rotr32, BitVec.getLsbD_or, BitVec.getLsbD_ushiftRight, BitVec.getLsbD_shiftLeft]
    simp
  rw [BitVec.getLsbD_xor, hz, hz, BitVec.getLsbD_xor, BitVec.getLsbD_xor, hr]
  generalize H.getLsbD 0 = a
  generalize x.getLsbD 0 = b
  generalize D.getLsbD 0 = c
  generalize y.getLsbD 23 = d
  generalize E.getLsbD 0 = e
  revert a b c d e
  decide

/-- Bit 0 of byte `4 * j` of a packet. -/
def lowBit (j : Nat) (p : List U8) : Bool := (p.getD (4 * j) 0).getLsbD 0

/-- Bit 7 of byte `4 * j + 6` of a packet. -/
def highBit (j : Nat) (p : List U8) : Bool := (p.getD (4 * j + 6) 0).getLsbD 7

/-- What the attacker computes: the first bit of word `j` of a packet from its ciphertext `c'`, the packet `(p, c)` before it, and any two
known packets `(p1, c1)` and `(p2, c2)` that were sent one after the other. -/
def attack (j : Nat) (p1 c1 p2 c2 p c c' : List U8) : Bool :=
  let k := fun p c => Bool.xor (lowBit j p) (lowBit j c)
  let K := fun p c => Bool.xor (k p c) (Bool.xor (highBit j p) (highBit j c))
  Bool.xor (lowBit j c') (Bool.xor (K p c) (Bool.xor (K p1 c1) (k p2 c2)))

theorem block_getD (o p : List U8) (w : U32) (i b : Nat) (hb : b < 4) (hl : 4 * (i + 1) ≤ p.length)
    (h : (o.drop (4 * i)).take 4 = xorBytes ((p.drop (4 * i)).take 4) (bytesLE32 w)) :
    o.getD (4 * i + b) 0 = p.getD (4 * i + b) 0 ^^^ byteN w b := by
  have e := congrArg (fun l => l.getD b 0) h
  have g : ∀ l : List U8, ((l.drop (4 * i)).take 4).getD b 0 = l.getD (4 * i + b) 0 := by
    intro l
    rw [List.getD_eq_getElem?_getD, List.getD_eq_getElem?_getD, List.getElem?_take_of_lt hb, List.getElem?_drop]
  simp only [g] at e
  rw [e]
  have hlen : ((p.drop (4 * i)).take 4).length = 4 := by rw [List.length_take, List.length_drop]; omega
  rw [← g p]
  generalize (p.drop (4 * i)).take 4 = q at *
  match q, hlen, b, hb with
  | [a0, a1, a2, a3], _, 0, _ => rfl
  | [a0, a1, a2, a3], _, 1, _ => rfl
  | [a0, a1, a2, a3], _, 2, _ => rfl
  | [a0, a1, a2, a3], _, 3, _ => rfl

/-- **C154 is false:** two known packets sent one after the other, and any other known packet, give bits of the packet that follows it, in
every session of packets of these sizes; for `j` = 0, 1, 2 three bits if the packets have at least sixteen bytes. -/
theorem hc128_packets_known (j : Nat) (hj : j < 3) (ps : List (List U8)) (cs : State)
    (hp : ∀ p ∈ ps, 4 * (j + 2) ≤ p.length ∧ p.length ≤ 2000) :
    ∃ s' out, runAll processPacket cs ps = .ok (s', out) ∧ ∀ s t, s + 1 < ps.length → t + 1 < ps.length →
      attack j (ps.getD s []) (out.getD s []) (ps.getD (s + 1) []) (out.getD (s + 1) []) (ps.getD t []) (out.getD t [])
        (out.getD (t + 1) []) = lowBit j (ps.getD (t + 1) []) := by
  obtain ⟨s', out, w, H, D, E, h1, h2, h3, h4⟩ := hc128_packets_predict j hj ps cs hp
  refine ⟨s', out, h1, fun s t hs ht => ?_⟩
  have hlen : ∀ t, t < ps.length → 4 * (j + 2) ≤ (ps.getD t []).length := by
    intro t ht
    rw [List.getD_eq_getElem?_getD, List.getElem?_eq_getElem ht]; exact (hp _ (List.getElem_mem ht)).1
  have lo : ∀ t, t < ps.length → lowBit j (out.getD t []) = Bool.xor (lowBit j (ps.getD t [])) ((w t j).getLsbD 0) := by
    intro t ht
    have hl := hlen t ht
    have e := block_getD _ _ _ j 0 (by omega) (by omega) (h3 t j ht (by omega))
    unfold lowBit
    rw [Nat.add_zero] at e
    rw [e, BitVec.getLsbD_xor]
    congr 1
    simp [byteN]
  have hi : ∀ t, t < ps.length → highBit j (out.getD t []) = Bool.xor (highBit j (ps.getD t [])) ((w t (j + 1)).getLsbD 23) := by
    intro t ht
    have hl := hlen t ht
    have e := block_getD _ _ _ (j + 1) 2 (by omega) (by omega) (h3 t (j + 1) ht (by omega))
    unfold highBit
    rw [show 4 * (j + 1) + 2 = 4 * j + 6 by omega] at e
    rw [e, BitVec.getLsbD_xor]
    congr 1
    simp [byteN]
  have n1 := congrArg (fun z => z.getLsbD 0) (h4 s hs)
  have n2 := congrArg (fun z => z.getLsbD 0) (h4 t ht)
  simp only [low_bit] at n1 n2
  unfold attack
  simp only [lo s (by omega), lo t (by omega), lo (s + 1) hs, lo (t + 1) ht, hi s (by omega), hi t (by omega), n1, n2]
  generalize lowBit j (ps.getD s []) = a1
  generalize lowBit j (ps.getD t []) = a2
  generalize lowBit j (ps.getD (s + 1) []) = a3
  generalize lowBit j (ps.getD (t + 1) []) = a4
  generalize highBit j (ps.getD s []) = a5
  generalize highBit j (ps.getD t []) = a6
  generalize (w s j).getLsbD 0 = a7
  generalize (w t j).getLsbD 0 = a8
  generalize (w s (j + 1)).getLsbD 23 = a9
  generalize (w t (j + 1)).getLsbD 23 = b1
  generalize Bool.xor (D.getLsbD 0) (E.getLsbD 0) = b2
  cases a1 <;> cases a2 <;> cases a3 <;> cases a4 <;> cases a5 <;> cases a6 <;> cases a7 <;> cases a8 <;> cases a9 <;> cases b1 <;> cases b2 <;> rfl

example := hc128_packets_known 2 (by decide) [List.replicate 16 1, List.replicate 2000 2, List.replicate 100 3]
  (init (List.replicate 16 1) (List.replicate 16 2)) (by simp only [List.mem_cons, List.not_mem_nil, or_false, forall_eq_or_imp, forall_eq, List.length_replicate]; omega)

/-- **C154 is false**, as a negation: not every computation from three known packets and a ciphertext fails on the first bit of the message
in it. -/
theorem hc128_packets_refuted :
    ¬ ∀ A : List U8 → List U8 → List U8 → List U8 → List U8 → List U8 → List U8 → Bool,
      ∃ (key iv : List U8) (ps out : List (List U8)) (s' : State) (s t : Nat), key.length = 16 ∧ iv.length = 16 ∧
        (∀ p ∈ ps, 8 ≤ p.length ∧ p.length ≤ 2000) ∧ s + 1 < ps.length ∧ t + 1 < ps.length ∧
        runAll processPacket (HC128.init key iv) ps = .ok (s', out) ∧
        A (ps.getD s []) (out.getD s []) (ps.getD (s + 1) []) (out.getD (s + 1) []) (ps.getD t []) (out.getD t []) (out.getD (t + 1) []) ≠
          ((ps.getD (t + 1) []).getD 0 0).getLsbD 0 := by
  intro h
  obtain ⟨key, iv, ps, out, s', s, t, -, -, hp, hs, ht, hr, hA⟩ := h (attack 0)
  obtain ⟨s2, out2, h1, h2⟩ := hc128_packets_known 0 (by decide) ps (HC128.init key iv) hp
  rw [hr, Res.ok_inj, Prod.mk.injEq] at h1
  obtain ⟨-, rfl⟩ := h1
  exact hA (h2 s t hs ht)

/-- **C154**, the part that holds: a session of packets whose sizes are multiples of 4096 is encrypted with the HC-128 stream of key and
IV, one packet after the other.  Missing: all other sizes. -/
theorem hc128_packets_partial (key iv : List U8) (hk : key.length = 16) (hi : iv.length = 16) (ps : List (List U8))
    (hp : ∀ p ∈ ps, p.length % 4096 = 0 ∧ p.length ≤ 2 ^ 33 - 8) :
    ∃ s' out, runAll processPacket (HC128.init key iv) ps = .ok (s', out) ∧ out.map List.length = ps.map List.length ∧
      out.flatten = xorBytes ps.flatten (Spec.HC128.keystream key iv ps.flatten.length) := by
  rw [← Props.HC128.keystream_eq key iv hk hi]
  generalize HC128.init key iv = cs
  induction ps generalizing cs with
  | nil => exact ⟨cs, [], rfl, rfl, rfl⟩
  | cons p ps ih =>
    obtain ⟨h1, h2⟩ := hp p (by simp)
    obtain ⟨s', out, ho, hl, hx⟩ := ih (fun x hx => hp x (by simp [hx])) (pktNext cs p.length)
    refine ⟨s', xorBytes p (pktKs cs p.length) :: out, ?_, ?_, ?_⟩
    · simp only [runAll, isStream.single p trivial h2, Res.ok_bind, ho, Res.pure_eq]
    · simp [hl, pktKs_length]
    · rw [List.flatten_cons, List.flatten_cons, List.length_append, (Props.HC128.take_gen _ cs h1).1, hx,
        xorBytes_append (by rw [pktKs_length])]

/-- Non-trivial instance: packets of 16 and 24 bytes; the words of the packets differ. -/
example : (∀ p ∈ [List.replicate 16 (1 : U8), List.replicate 24 2, List.replicate 16 3], 4 * (2 + 2) ≤ p.length ∧ p.length ≤ 2000) ∧
    wordAt tables [List.replicate 16 (1 : U8), List.replicate 24 2, List.replicate 16 3] 0 0 ≠
      wordAt tables [List.replicate 16 (1 : U8), List.replicate 24 2, List.replicate 16 3] 1 0 ∧
    wordAt tables [List.replicate 16 (1 : U8), List.replicate 24 2, List.replicate 16 3] 1 0 ≠
      wordAt tables [List.replicate 16 (1 : U8), List.replicate 24 2, List.replicate 16 3] 2 0 ∧
    constD tables 0 ≠ 0 ∧ constE tables 0 ≠ 0 := by decide +kernel

example : ∀ p ∈ [List.replicate 4096 (1 : U8), List.replicate 8192 2], p.length % 4096 = 0 ∧ p.length ≤ 2 ^ 33 - 8 := by
  intro p hp
  simp only [List.mem_cons, List.not_mem_nil, or_false] at hp
  rcases hp with rfl | rfl <;> rw [List.length_replicate] <;> decide

end CT.Props.HC128Packets
