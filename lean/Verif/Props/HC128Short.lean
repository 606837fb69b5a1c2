import Verif.Proof.HC128

/-!
# HC-128: sessions of short packets (C152)

Every packet starts at the beginning of the tables, so short packets use and change only a small part of the state.
-/

namespace CT.Props.HC128Short
open CT.HC128

/-! ### What a session of small packets leaves alone -/

theorem vget (v : Table) (i : Fin 512) : v.get i = v[i.val] := rfl

theorem step_keeps (cs : State) (i n : Nat) (hi : i < n) (hn : n ≤ 512) :
    (step cs i).1.Q = cs.Q ∧ ∀ j : Fin 512, n ≤ j.val → (step cs i).1.P.get j = cs.P.get j := by
  have h1 : i % 512 = i := Nat.mod_eq_of_lt (by omega)
  have h2 : i % 1024 < 512 := by omega
  unfold step
  simp only [h2, if_true]
  refine ⟨trivial, fun j hj => ?_⟩
  rw [vget, vget, Vector.getElem_set_ne]
  omega

theorem gen_keeps (n : Nat) (hn : n ≤ 512) (m : Nat) : ∀ (i : Nat) (cs : State), i + m ≤ n →
    (gen m i cs).1.Q = cs.Q ∧ ∀ j : Fin 512, n ≤ j.val → (gen m i cs).1.P.get j = cs.P.get j := by
  induction m with
  | zero => intro i cs _; exact ⟨rfl, fun _ _ => rfl⟩
  | succ m ih =>
    intro i cs h
    obtain ⟨q1, p1⟩ := step_keeps cs i n (by omega) hn
    obtain ⟨q2, p2⟩ := ih (i + 1) (step cs i).1 (by omega)
    exact ⟨q2.trans q1, fun j hj => (p2 j hj).trans (p1 j hj)⟩

/-- **C152.**  However many packets are sent: if none has more than `4 * n` bytes, with `n` at most 512, the table `Q` and the words of `P`
from the `n`-th on never change. -/
theorem hc128_small_packets_keep (n : Nat) (hn : n ≤ 512) : ∀ (ps : List (List U8)) (cs s : State) (out : List (List U8)),
    (∀ p ∈ ps, p.length ≤ 4 * n) → runAll processPacket cs ps = .ok (s, out) →
    s.Q = cs.Q ∧ ∀ j : Fin 512, n ≤ j.val → s.P.get j = cs.P.get j
  | [], cs, s, out, _, h => by
    simp only [runAll, Res.ok_inj, Prod.mk.injEq] at h
    obtain ⟨rfl, rfl⟩ := h
    exact ⟨rfl, fun _ _ => rfl⟩
  | p :: ps, cs, s, out, hp, h => by
    have hpl := hp p (by simp)
    simp only [runAll, isStream.single p trivial (show p.length ≤ 2 ^ 33 - 8 by omega), Res.ok_bind] at h
    obtain ⟨⟨s1, o1⟩, e1, h⟩ := Res.bind_eq_ok h
    simp only [Res.pure_eq, Res.ok_inj, Prod.mk.injEq] at h
    obtain ⟨rfl, rfl⟩ := h
    obtain ⟨q2, p2⟩ := hc128_small_packets_keep n hn ps _ _ _ (fun x hx => hp x (by simp [hx])) e1
    obtain ⟨q1, p1⟩ := gen_keeps n hn ((p.length + 3) / 4) 0 cs (by omega)
    exact ⟨q2.trans q1, fun j hj => (p2 j hj).trans (p1 j hj)⟩

/-- Two packets of three and eight bytes from any state. -/
example (cs s : State) (out : List (List U8)) (h : runAll processPacket cs [[1, 2, 3], [1, 2, 3, 4, 5, 6, 7, 8]] = .ok (s, out)) :
    s.Q = cs.Q ∧ s.P.get 2 = cs.P.get 2 := by
  obtain ⟨h1, h2⟩ := hc128_small_packets_keep 2 (by decide) _ cs s out (by decide) h
  exact ⟨h1, h2 2 (by decide)⟩

/-! ### Packets of at most four bytes -/

/-- The state with another word at the beginning of `P`. -/
def withWord (cs : State) (w : U32) : State := { cs with P := cs.P.set 0 w (by omega) }

/-- The word that is added to `P[0]` with every packet. -/
def incr (cs : State) : U32 := g1 (cs.P.get 509) (cs.P.get 502) (cs.P.get 1)

/-- The word that masks it. -/
def mask (cs : State) : U32 := h cs.Q (cs.P.get 500)

theorem step_zero (cs : State) (w : U32) :
    step (withWord cs w) 0 = (withWord cs (w + incr cs), mask cs ^^^ (w + incr cs)) := by
  have g : ∀ (v : U32) (j : Nat) (hj : j < 512), j ≠ 0 → (cs.P.set 0 v (by omega)).get ⟨j, hj⟩ = cs.P.get ⟨j, hj⟩ := by
    intro v j hj hne
    rw [vget, vget, Vector.getElem_set_ne]
    simp; omega
  have g0 : ∀ (v : U32), (cs.P.set 0 v (by omega)).get ⟨0, by omega⟩ = v := by
    intro v; rw [vget, Vector.getElem_set_self]
  have e3 : back 0 3 = ⟨509, by omega⟩ := rfl
  have e10 : back 0 10 = ⟨502, by omega⟩ := rfl
  have e511 : back 0 511 = ⟨1, by omega⟩ := rfl
  have e12 : back 0 12 = ⟨500, by omega⟩ := rfl
  have hf : feed g1 (cs.P.set 0 w (by omega)) ⟨0, by omega⟩ = w + incr cs := by
    unfold feed
    rw [g0]
    show w + g1 ((cs.P.set 0 w _).get (back 0 3)) ((cs.P.set 0 w _).get (back 0 10)) ((cs.P.set 0 w _).get (back 0 511)) = _
    rw [e3, e10, e511, g w 509 _ (by omega), g w 502 _ (by omega), g w 1 _ (by omega)]
    rfl
  have hs : (cs.P.set 0 w (by omega)).set 0 (w + incr cs) (by omega) = cs.P.set 0 (w + incr cs) (by omega) := by
    rw [Vector.set_set]
  unfold step withWord
  show (_, _) = _
  simp only [Nat.zero_mod, hf, hs]
  rw [e12, g _ 500 _ (by omega), g0]
  rfl

theorem withWord_self (cs : State) : withWord cs (cs.P.get 0) = cs := by
  unfold withWord
  obtain ⟨P, Q⟩ := cs
  congr 1
  apply Vector.ext
  intro i hi
  rw [Vector.getElem_set]
  split
  · subst_vars; rfl
  · rfl

theorem withWord_incr (cs : State) (w : U32) : incr (withWord cs w) = incr cs ∧ mask (withWord cs w) = mask cs := by
  have g : ∀ (v : U32) (j : Nat) (hj : j < 512), j ≠ 0 → (cs.P.set 0 v (by omega)).get ⟨j, hj⟩ = cs.P.get ⟨j, hj⟩ := by
    intro v j hj hne
    rw [vget, vget, Vector.getElem_set_ne]
    simp; omega
  unfold incr mask withWord
  exact ⟨by rw [show (509 : Fin 512) = ⟨509, by omega⟩ from rfl, show (502 : Fin 512) = ⟨502, by omega⟩ from rfl,
    show (1 : Fin 512) = ⟨1, by omega⟩ from rfl, g w 509 _ (by omega), g w 502 _ (by omega), g w 1 _ (by omega)],
    by rw [show (500 : Fin 512) = ⟨500, by omega⟩ from rfl, g w 500 _ (by omega)]⟩

/-- The keystream word of packet number `t` (from zero) of a session of packets of one to four bytes. -/
def word (cs : State) (t : Nat) : U32 := mask cs ^^^ (cs.P.get 0 + BitVec.ofNat 32 (t + 1) * incr cs)

theorem short_packet (cs : State) (n : Nat) (h1 : 1 ≤ n) (h4 : n ≤ 4) :
    pktNext cs n = withWord cs (cs.P.get 0 + incr cs) ∧ pktKs cs n = (bytesLE32 (mask cs ^^^ (cs.P.get 0 + incr cs))).take n := by
  have e : (n + 3) / 4 = 1 := by omega
  have hg : gen 1 0 cs = ((step cs 0).1, [(step cs 0).2]) := rfl
  have hs := step_zero cs (cs.P.get 0)
  rw [withWord_self] at hs
  unfold pktNext pktKs
  rw [e, hg, hs]
  refine ⟨rfl, ?_⟩
  show (bytesLE32 _ ++ []).take n = _
  rw [List.append_nil]

/-- **C152.**  In a session of packets of one to four bytes the keystream words are those of an arithmetic progression, exclusive-ored with
a constant. -/
theorem hc128_short_packets : ∀ (ps : List (List U8)) (cs : State), (∀ p ∈ ps, 1 ≤ p.length ∧ p.length ≤ 4) →
    ∃ out, runAll processPacket cs ps = .ok (withWord cs (cs.P.get 0 + BitVec.ofNat 32 ps.length * incr cs), out) ∧
      out.length = ps.length ∧
      ∀ t, t < ps.length → out.getD t [] = xorBytes (ps.getD t []) (bytesLE32 (word cs t))
  | [], cs, _ => ⟨[], by
      simp only [runAll, List.length_nil, Res.ok_inj, Prod.mk.injEq, and_true]
      rw [BitVec.zero_mul, BitVec.add_zero, withWord_self], rfl, fun t h => absurd h (by simp)⟩
  | p :: ps, cs, hp => by
    obtain ⟨h1, h4⟩ := hp p (by simp)
    obtain ⟨en, ek⟩ := short_packet cs p.length h1 h4
    obtain ⟨out, ho, hl, hx⟩ := hc128_short_packets ps (withWord cs (cs.P.get 0 + incr cs)) (fun x hx => hp x (by simp [hx]))
    have hi := withWord_incr cs (cs.P.get 0 + incr cs)
    have hw : (withWord cs (cs.P.get 0 + incr cs)).P.get 0 = cs.P.get 0 + incr cs := by
      unfold withWord; rw [vget]; exact Vector.getElem_set_self ..
    have hsucc : ∀ m : Nat, cs.P.get 0 + incr cs + BitVec.ofNat 32 m * incr cs = cs.P.get 0 + BitVec.ofNat 32 (m + 1) * incr cs := by
      intro m
      rw [BitVec.add_assoc, Nat.add_comm m 1, BitVec.ofNat_add, BitVec.add_mul, BitVec.one_mul]
    refine ⟨xorBytes p (pktKs cs p.length) :: out, ?_, by simp [hl], ?_⟩
    · simp only [runAll, isStream.single p trivial (show p.length ≤ 2 ^ 33 - 8 by omega), Res.ok_bind, en]
      rw [ho]
      simp only [Res.ok_bind, Res.pure_eq, Res.ok_inj, Prod.mk.injEq, and_true, List.length_cons]
      rw [hw, hi.1, hsucc]
      unfold withWord
      simp only [Vector.set_set]
    · intro t ht
      cases t with
      | zero =>
        show xorBytes p (pktKs cs p.length) = xorBytes p (bytesLE32 (word cs 0))
        rw [ek, word, Nat.zero_add, BitVec.one_mul]
        generalize bytesLE32 (mask cs ^^^ (cs.P.get 0 + incr cs)) = b
        unfold xorBytes
        rw [List.zipWith_eq_zipWith_take_min, List.length_take]
        conv => rhs; rw [List.zipWith_eq_zipWith_take_min]
        rw [List.take_take]
        congr 2 <;> omega
      | succ t =>
        show out.getD t [] = xorBytes (ps.getD t []) (bytesLE32 (word cs (t + 1)))
        rw [hx t (by simpa using ht), word, word, hw, hi.1, hi.2, hsucc]

example (cs : State) : ∃ out, runAll processPacket cs [[1], [2, 3, 4]] = .ok (withWord cs (cs.P.get 0 + 2 * incr cs), out) ∧ out.length = 2 := by
  obtain ⟨out, h1, h2, -⟩ := hc128_short_packets [[1], [2, 3, 4]] cs (by decide)
  exact ⟨out, h1, h2⟩

theorem word_low (cs : State) (s t j : Nat) (hj : j ≤ 32) (h : s % 2 ^ j = t % 2 ^ j) : (word cs s).setWidth j = (word cs t).setWidth j := by
  have e : BitVec.ofNat j (s + 1) = BitVec.ofNat j (t + 1) := by
    apply BitVec.eq_of_toNat_eq
    rw [BitVec.toNat_ofNat, BitVec.toNat_ofNat, Nat.add_mod, h, ← Nat.add_mod]
  unfold word
  rw [BitVec.setWidth_xor, BitVec.setWidth_xor, BitVec.setWidth_add _ _ hj, BitVec.setWidth_add _ _ hj, BitVec.setWidth_mul _ _ hj,
    BitVec.setWidth_mul _ _ hj, BitVec.setWidth_ofNat_of_le hj, BitVec.setWidth_ofNat_of_le hj, e]

theorem byteN_low (x y : U32) (b i : Nat) (hi : i < b) (h : x.setWidth (8 * b) = y.setWidth (8 * b)) : byteN x i = byteN y i := by
  apply BitVec.eq_of_getLsbD_eq
  intro k hk
  have e := congrArg (fun z => z.getLsbD (8 * i + k)) h
  simp only [BitVec.getLsbD_setWidth, show 8 * i + k < 8 * b by omega, decide_true, Bool.true_and] at e
  unfold byteN
  rw [BitVec.getLsbD_extractLsb', BitVec.getLsbD_extractLsb', e]

theorem bytes_low (x y : U32) (b : Nat) (hb : b ≤ 4) (h : x.setWidth (8 * b) = y.setWidth (8 * b)) :
    (bytesLE32 x).take b = (bytesLE32 y).take b := by
  have e : ∀ i < b, byteN x i = byteN y i := fun i hi => byteN_low x y b i hi h
  match b, hb with
  | 0, _ => rfl
  | 1, _ => simp only [bytesLE32, List.take, e 0 (by omega)]
  | 2, _ => simp only [bytesLE32, List.take, e 0 (by omega), e 1 (by omega)]
  | 3, _ => simp only [bytesLE32, List.take, e 0 (by omega), e 1 (by omega), e 2 (by omega)]
  | 4, _ => simp only [bytesLE32, List.take, e 0 (by omega), e 1 (by omega), e 2 (by omega), e 3 (by omega)]

/-- **C152.**  The lowest `j` bits of the keystream word repeat every `2 ^ j` packets: the lowest bit with every other packet, and the whole
word after `2 ^ 32`. -/
theorem hc128_short_period (cs : State) (ps : List (List U8)) (hp : ∀ p ∈ ps, 1 ≤ p.length ∧ p.length ≤ 4) :
    ∃ s' out, runAll processPacket cs ps = .ok (s', out) ∧ ∃ w : Nat → U32,
      (∀ t, t < ps.length → out.getD t [] = xorBytes (ps.getD t []) (bytesLE32 (w t))) ∧
      ∀ s t j, j ≤ 32 → s % 2 ^ j = t % 2 ^ j → (w s).setWidth j = (w t).setWidth j := by
  obtain ⟨out, h, _, hx⟩ := hc128_short_packets ps cs hp
  exact ⟨_, out, h, word cs, hx, fun s t j hj e => word_low cs s t j hj e⟩

example (cs : State) := hc128_short_period cs (List.replicate 300 [7]) (fun p hp => by rw [List.eq_of_mem_replicate hp]; decide)

/-- **C152.**  So a known packet opens others: of every 256-th packet before and after it the first byte, of every 65536-th two bytes, and
so on.  The numbers of the packets, the known message and the ciphertexts are all that is needed. -/
theorem hc128_short_known (cs : State) (ps : List (List U8)) (hp : ∀ p ∈ ps, 1 ≤ p.length ∧ p.length ≤ 4) :
    ∃ s' out, runAll processPacket cs ps = .ok (s', out) ∧
      ∀ b s t, b ≤ (ps.getD s []).length → s < ps.length → t < ps.length → s % 2 ^ (8 * b) = t % 2 ^ (8 * b) →
        (xorBytes (out.getD t []) (xorBytes (ps.getD s []) (out.getD s []))).take b = (ps.getD t []).take b := by
  obtain ⟨out, h, _, hx⟩ := hc128_short_packets ps cs hp
  refine ⟨_, out, h, fun b s t hb hs ht e => ?_⟩
  have hl : (ps.getD s []).length ≤ 4 := by
    rw [List.getD_eq_getElem?_getD, List.getElem?_eq_getElem hs]; exact (hp _ (List.getElem_mem hs)).2
  have hk := bytes_low _ _ b (by omega) (word_low cs s t (8 * b) (by omega) e)
  rw [hx t ht, hx s hs]
  generalize ps.getD t [] = p
  generalize ps.getD s [] = q at *
  generalize word cs s = x at *
  generalize word cs t = y at *
  have h2 : xorBytes q (xorBytes q (bytesLE32 x)) = (bytesLE32 x).take q.length := by
    have hq : xorBytes q (bytesLE32 x) = xorBytes q ((bytesLE32 x).take q.length) := by
      unfold xorBytes
      rw [List.zipWith_eq_zipWith_take_min]
      conv => rhs; rw [List.zipWith_eq_zipWith_take_min]
      rw [List.length_take, List.take_take, show (bytesLE32 x).length = 4 from rfl]
      congr 2 <;> omega
    have hlen : ((bytesLE32 x).take q.length).length = q.length := by
      rw [List.length_take, show (bytesLE32 x).length = 4 from rfl]; omega
    rw [hq]
    generalize (bytesLE32 x).take q.length = K at *
    rw [xorBytes_comm q K, xorBytes_comm q, xorBytes_xorBytes K q (by omega)]
  rw [h2]
  have tk : ∀ u v : List U8, (xorBytes u v).take b = xorBytes (u.take b) (v.take b) := fun u v => List.take_zipWith
  rw [tk, tk, List.take_take, Nat.min_eq_left hb, hk, xorBytes_xorBytes _ _ (by
    rw [List.length_take, List.length_take, show (bytesLE32 y).length = 4 from rfl]; omega)]

/-- The first packet gives away the byte of packet 256. -/
example (cs : State) (x : U8) : ∃ s' out, runAll processPacket cs (List.replicate 256 [7] ++ [[x]]) = .ok (s', out) ∧
    (xorBytes (out.getD 256 []) (xorBytes [7] (out.getD 0 []))).take 1 = [x] := by
  have hl : (List.replicate 256 [7] ++ [[x]]).length = 257 := by
    rw [List.length_append, List.length_replicate, List.length_singleton]
  obtain ⟨s', out, h1, h2⟩ := hc128_short_known cs (List.replicate 256 [7] ++ [[x]]) (fun p hp => by
    obtain h | h := List.mem_append.mp hp
    · rw [List.eq_of_mem_replicate h]; decide
    · rw [List.mem_singleton.mp h]; exact ⟨Nat.le_refl 1, Nat.le_add_left 1 3⟩)
  exact ⟨s', out, h1, h2 1 0 256 (Nat.le_refl 1) (by omega) (by omega) (by decide)⟩

/-- **C152**, the part that holds: exactly when two of these packets have the same keystream word.  If the word that is added is odd, no
two of `2 ^ 32` packets in a row have.  Missing: that known words tell nothing about others, which is false (`hc128_short_known`). -/
theorem hc128_short_partial (cs : State) (ps : List (List U8)) (hp : ∀ p ∈ ps, 1 ≤ p.length ∧ p.length ≤ 4) :
    ∃ s' out, runAll processPacket cs ps = .ok (s', out) ∧ ∃ w : Nat → U32,
      (∀ t, t < ps.length → out.getD t [] = xorBytes (ps.getD t []) (bytesLE32 (w t))) ∧
      ∀ s t, s ≤ t → (w s = w t ↔ (t - s) * (g1 (cs.P.get 509) (cs.P.get 502) (cs.P.get 1)).toNat % 2 ^ 32 = 0) := by
  obtain ⟨out, h, _, hx⟩ := hc128_short_packets ps cs hp
  refine ⟨_, out, h, word cs, hx, fun s t hst => ?_⟩
  show _ ↔ (t - s) * (incr cs).toNat % 2 ^ 32 = 0
  obtain ⟨d, rfl⟩ := Nat.exists_eq_add_of_le hst
  have e : word cs s = word cs (s + d) ↔ BitVec.ofNat 32 d * incr cs = 0 := by
    unfold word
    rw [BitVec.xor_right_inj, BitVec.add_right_inj, show s + d + 1 = (s + 1) + d by omega, BitVec.ofNat_add (s + 1) d, BitVec.add_mul]
    constructor
    · intro q
      have := (BitVec.add_right_inj (z := BitVec.ofNat 32 (s + 1) * incr cs) (x := 0) (y := BitVec.ofNat 32 d * incr cs)).mp (by
        rw [← q]; exact BitVec.add_zero _)
      exact this.symm
    · intro q
      rw [q]; exact (BitVec.add_zero _).symm
  rw [e, Nat.add_sub_cancel_left]
  generalize incr cs = g
  constructor
  · intro q
    have := congrArg BitVec.toNat q
    rw [BitVec.toNat_mul, BitVec.toNat_ofNat, Nat.mod_mul_mod] at this
    exact this
  · intro q
    apply BitVec.eq_of_toNat_eq
    rw [BitVec.toNat_mul, BitVec.toNat_ofNat, Nat.mod_mul_mod]
    exact q

example (cs : State) := hc128_short_partial cs [[1], [2, 3], [4, 5, 6], [7, 8, 9, 10]] (by decide)

/-- **C152 is false:** one and the same computation gets the first byte of packet `t + 256` from its ciphertext and packet `t`, for every
key, IV and session. -/
theorem hc128_short_refuted :
    ¬ ∀ A : U8 → U8 → U8 → U8, ∃ (key iv : List U8) (ps out : List (List U8)) (s : State) (t : Nat), key.length = 16 ∧ iv.length = 16 ∧
      (∀ p ∈ ps, 1 ≤ p.length ∧ p.length ≤ 4) ∧ t + 256 < ps.length ∧ runAll processPacket (HC128.init key iv) ps = .ok (s, out) ∧
      A ((ps.getD t []).getD 0 0) ((out.getD t []).getD 0 0) ((out.getD (t + 256) []).getD 0 0) ≠ (ps.getD (t + 256) []).getD 0 0 := by
  intro h
  obtain ⟨key, iv, ps, out, s, t, hk, hv, hp, ht, hr, hA⟩ := h fun p c c' => c' ^^^ (p ^^^ c)
  obtain ⟨out', ho, hl, hx⟩ := hc128_short_packets ps (HC128.init key iv) hp
  rw [hr, Res.ok_inj, Prod.mk.injEq] at ho
  obtain ⟨-, rfl⟩ := ho
  refine hA ?_
  have hb := byteN_low (word (HC128.init key iv) t) (word (HC128.init key iv) (t + 256)) 1 0 (by omega)
    (word_low _ t (t + 256) 8 (by omega) (by omega))
  have ne : ∀ k < ps.length, ∃ a as, ps.getD k [] = a :: as := by
    intro k hk
    have := (hp _ (List.getElem_mem hk)).1
    rw [List.getD_eq_getElem?_getD, List.getElem?_eq_getElem hk, Option.getD_some]
    cases e : ps[k] with
    | nil => rw [e] at this; simp at this
    | cons a as => exact ⟨a, as, rfl⟩
  obtain ⟨a, as, ea⟩ := ne t (by omega)
  obtain ⟨b, bs, eb⟩ := ne (t + 256) ht
  rw [hx t (by omega), hx (t + 256) ht, ea, eb]
  show (b ^^^ byteN (word (HC128.init key iv) (t + 256)) 0) ^^^ (a ^^^ (a ^^^ byteN (word (HC128.init key iv) t) 0)) = b
  rw [hb, ← BitVec.xor_assoc a, BitVec.xor_self, BitVec.zero_xor, BitVec.xor_assoc, BitVec.xor_self, BitVec.xor_zero]

/-! ### Packets of two and three words -/

/-- The word that is added to the last of `n` words of `P` with every packet of `n` words. -/
def lastIncr (n : Nat) (cs : State) : U32 := g1 (cs.P.get (back (n - 1) 3)) (cs.P.get (back (n - 1) 10)) (cs.P.get (back (n - 1) 511))

/-- The word that masks it. -/
def lastMask (n : Nat) (cs : State) : U32 := h cs.Q (cs.P.get (back (n - 1) 12))

/-- The last of `n` words of `P`. -/
def last (n : Nat) (cs : State) : U32 := cs.P.get (back (n - 1) 0)

/-- The last keystream word of packet number `t` (from zero) of a session of packets of `n` words. -/
def lastWord (n : Nat) (cs : State) (t : Nat) : U32 := lastMask n cs ^^^ (last n cs + BitVec.ofNat 32 (t + 1) * lastIncr n cs)

theorem last_packet (cs : State) (n : Nat) (h1 : 1 ≤ n) (h3 : n ≤ 3) :
    lastIncr n (gen n 0 cs).1 = lastIncr n cs ∧ lastMask n (gen n 0 cs).1 = lastMask n cs ∧
    last n (gen n 0 cs).1 = last n cs + lastIncr n cs ∧
    ∃ ws : List U32, ws.length = n - 1 ∧ (gen n 0 cs).2 = ws ++ [lastMask n cs ^^^ (last n cs + lastIncr n cs)] := by
  obtain ⟨m, rfl⟩ : ∃ m, n = m + 1 := ⟨n - 1, by omega⟩
  have hm : m ≤ 2 := by omega
  obtain ⟨q1, p1⟩ := gen_keeps m (by omega) m 0 cs (by omega)
  obtain ⟨q2, p2⟩ := gen_keeps (m + 1) (by omega) (m + 1) 0 cs (by omega)
  have e := gen_add m 1 0 cs
  have hg : ∀ c i, gen 1 i c = ((step c i).1, [(step c i).2]) := fun _ _ => rfl
  rw [hg, Nat.zero_add] at e
  have hl := gen_length m 0 cs
  generalize (gen m 0 cs).1 = c1 at *
  generalize (gen m 0 cs).2 = ws at *
  have b0 : (back m 0).val = m := by simp only [back]; omega
  have b3 : m + 1 ≤ (back m 3).val := by simp only [back]; omega
  have b10 : m + 1 ≤ (back m 10).val := by simp only [back]; omega
  have b511 : m + 1 ≤ (back m 511).val := by simp only [back]; omega
  have b12 : m + 1 ≤ (back m 12).val := by simp only [back]; omega
  have hm512 : m % 512 = m := Nat.mod_eq_of_lt (by omega)
  have hf : feed g1 c1.P ⟨m, by omega⟩ = last (m + 1) cs + lastIncr (m + 1) cs := by
    unfold feed last lastIncr
    rw [show (⟨m, by omega⟩ : Fin 512) = back m 0 from Fin.ext b0.symm, b0, p1 (back m 0) (by omega), p1 (back m 3) (by omega),
      p1 (back m 10) (by omega), p1 (back m 511) (by omega)]
    rfl
  have hs : step c1 m = (⟨c1.P.set m (last (m + 1) cs + lastIncr (m + 1) cs) (by omega), c1.Q⟩,
      lastMask (m + 1) cs ^^^ (last (m + 1) cs + lastIncr (m + 1) cs)) := by
    unfold step
    simp only [hm512, hf, if_pos (show m % 1024 < 512 by omega)]
    rw [vget, vget, Vector.getElem_set_self, Vector.getElem_set_ne _ _ (by omega), ← vget, p1 _ (by omega), q1]
    rfl
  refine ⟨?_, ?_, ?_, ws, hl, ?_⟩
  · unfold lastIncr
    rw [show m + 1 - 1 = m from rfl, p2 _ b3, p2 _ b10, p2 _ b511]
  · unfold lastMask
    rw [show m + 1 - 1 = m from rfl, p2 _ b12, q2]
  · rw [e, hs]
    show (c1.P.set m _ (by omega)).get (back m 0) = _
    rw [show back m 0 = ⟨m, by omega⟩ from Fin.ext b0, vget, Vector.getElem_set_self]
  · rw [e, hs]

theorem lastWord_next (cs : State) (n : Nat) (h1 : 1 ≤ n) (h3 : n ≤ 3) (t : Nat) :
    lastWord n (gen n 0 cs).1 t = lastWord n cs (t + 1) := by
  obtain ⟨e1, e2, e3, -⟩ := last_packet cs n h1 h3
  rw [lastWord, lastWord, e1, e2, e3, BitVec.add_assoc, Nat.add_comm (t + 1) 1, BitVec.ofNat_add 1, BitVec.add_mul, BitVec.one_mul]

theorem pktKs_last (cs : State) (n k : Nat) (h1 : 1 ≤ n) (h3 : n ≤ 3) (hk : 4 * (n - 1) < k) (hk' : k ≤ 4 * n) :
    pktNext cs k = (gen n 0 cs).1 ∧
    (pktKs cs k).drop (4 * (n - 1)) = (bytesLE32 (lastWord n cs 0)).take (k - 4 * (n - 1)) := by
  obtain ⟨-, -, -, ws, hl, hw⟩ := last_packet cs n h1 h3
  have e : (k + 3) / 4 = n := by omega
  refine ⟨by rw [pktNext, e], ?_⟩
  have hb : wordsToBytesLE (ws ++ [lastWord n cs 0]) = wordsToBytesLE ws ++ bytesLE32 (lastWord n cs 0) := by
    unfold wordsToBytesLE
    rw [List.flatMap_append]; rfl
  have hlen : (wordsToBytesLE ws).length = 4 * (n - 1) := by rw [wordsToBytesLE_length, hl]
  rw [pktKs, e, hw, show lastMask n cs ^^^ (last n cs + lastIncr n cs) = lastWord n cs 0 by
    rw [lastWord, Nat.zero_add, BitVec.one_mul], hb, List.drop_take, ← hlen, List.drop_left']
  rfl

/-- **C152.**  The same for longer packets: if all packets of a session have two words (5 to 8 bytes), or all have three, the last
keystream words of the packets are an arithmetic progression, exclusive-ored with a constant. -/
theorem hc128_short_last (n : Nat) (h1 : 1 ≤ n) (h3 : n ≤ 3) : ∀ (ps : List (List U8)) (cs : State),
    (∀ p ∈ ps, 4 * (n - 1) < p.length ∧ p.length ≤ 4 * n) →
    ∃ s' out, runAll processPacket cs ps = .ok (s', out) ∧ out.length = ps.length ∧
      ∀ t, t < ps.length →
        (out.getD t []).drop (4 * (n - 1)) = xorBytes ((ps.getD t []).drop (4 * (n - 1))) (bytesLE32 (lastWord n cs t))
  | [], cs, _ => ⟨cs, [], rfl, rfl, fun t h => absurd h (by simp)⟩
  | p :: ps, cs, hp => by
    obtain ⟨l1, l2⟩ := hp p (by simp)
    obtain ⟨en, ek⟩ := pktKs_last cs n p.length h1 h3 l1 l2
    obtain ⟨s', out, ho, hl, hx⟩ := hc128_short_last n h1 h3 ps (gen n 0 cs).1 (fun x hx => hp x (by simp [hx]))
    refine ⟨s', xorBytes p (pktKs cs p.length) :: out, ?_, by simp [hl], ?_⟩
    · simp only [runAll, isStream.single p trivial (show p.length ≤ 2 ^ 33 - 8 by omega), Res.ok_bind, en, ho, Res.pure_eq]
    · intro t ht
      cases t with
      | zero =>
        show (xorBytes p (pktKs cs p.length)).drop _ = xorBytes (p.drop _) (bytesLE32 (lastWord n cs 0))
        unfold xorBytes
        rw [List.drop_zipWith, ek]
        generalize bytesLE32 (lastWord n cs 0) = b
        rw [List.zipWith_eq_zipWith_take_min, List.length_take, List.length_drop]
        conv => rhs; rw [List.zipWith_eq_zipWith_take_min]
        rw [List.take_take, List.length_drop]
        congr 2 <;> omega
      | succ t =>
        show (out.getD t []).drop _ = xorBytes ((ps.getD t []).drop _) (bytesLE32 (lastWord n cs (t + 1)))
        rw [hx t (by simpa using ht), lastWord_next cs n h1 h3]

example (cs : State) := hc128_short_last 2 (by decide) (by decide) [[1, 2, 3, 4, 5], [2, 3, 4, 5, 6, 7, 8, 9]] cs (by decide)

theorem lastWord_low (n : Nat) (cs : State) (s t j : Nat) (hj : j ≤ 32) (h : s % 2 ^ j = t % 2 ^ j) :
    (lastWord n cs s).setWidth j = (lastWord n cs t).setWidth j := by
  have e : BitVec.ofNat j (s + 1) = BitVec.ofNat j (t + 1) := by
    apply BitVec.eq_of_toNat_eq
    rw [BitVec.toNat_ofNat, BitVec.toNat_ofNat, Nat.add_mod, h, ← Nat.add_mod]
  unfold lastWord
  rw [BitVec.setWidth_xor, BitVec.setWidth_xor, BitVec.setWidth_add _ _ hj, BitVec.setWidth_add _ _ hj, BitVec.setWidth_mul _ _ hj,
    BitVec.setWidth_mul _ _ hj, BitVec.setWidth_ofNat_of_le hj, BitVec.setWidth_ofNat_of_le hj, e]

/-- **C152.**  The last word of the keystream of these packets repeats in its lowest `j` bits every `2 ^ j` packets. -/
theorem hc128_short_last_period (n : Nat) (h1 : 1 ≤ n) (h3 : n ≤ 3) (cs : State) (ps : List (List U8))
    (hp : ∀ p ∈ ps, 4 * (n - 1) < p.length ∧ p.length ≤ 4 * n) :
    ∃ s' out, runAll processPacket cs ps = .ok (s', out) ∧ ∃ w : Nat → U32,
      (∀ t, t < ps.length → (out.getD t []).drop (4 * (n - 1)) = xorBytes ((ps.getD t []).drop (4 * (n - 1))) (bytesLE32 (w t))) ∧
      ∀ s t j, j ≤ 32 → s % 2 ^ j = t % 2 ^ j → (w s).setWidth j = (w t).setWidth j := by
  obtain ⟨s', out, h, _, hx⟩ := hc128_short_last n h1 h3 ps cs hp
  exact ⟨s', out, h, lastWord n cs, hx, fun s t j hj e => lastWord_low n cs s t j hj e⟩

/-- Tables with contents for the instances. -/
def tables : State := ⟨Vector.ofFn fun i => BitVec.ofNat 32 (i.val * 2654435761), Vector.ofFn fun i => BitVec.ofNat 32 (i.val * 40503 + 7)⟩

/-- Non-trivial instance: packets of one to four bytes; the word that is added is not zero, and the words differ. -/
example : (∀ p ∈ [[1], [2, 3], [4, 5, 6], [7, 8, 9, (10 : U8)]], 1 ≤ p.length ∧ p.length ≤ 4) ∧ incr tables ≠ 0 ∧
    word tables 0 ≠ word tables 1 ∧ (word tables 1).setWidth 8 = (word tables 257).setWidth 8 := by decide +kernel

/-- Non-trivial instance: packets of two words. -/
example : (∀ p ∈ [[1, 2, 3, 4, 5], [2, 3, 4, 5, 6, 7, 8, (9 : U8)]], 4 * (2 - 1) < p.length ∧ p.length ≤ 4 * 2) ∧ lastIncr 2 tables ≠ 0 ∧
    lastWord 2 tables 0 ≠ lastWord 2 tables 1 ∧ lastWord 2 tables 0 ≠ word tables 0 := by decide +kernel

end CT.Props.HC128Short
