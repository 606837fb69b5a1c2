import Verif.Model.ChaCha
import Verif.Spec.ChaCha

namespace CT.ChaCha

/-- The state with the four words of a quarter round replaced. -/
def put (s : Words) (a b c d : Fin 16) (A B C D : U32) : Words :=
  Vector.ofFn fun i =>
    if i = a then A else if i = b then B else if i = c then C else if i = d then D else s[i]

section
variable {s : Words} {a b c d : Fin 16} {A B C D X : U32}

theorem put_self : put s a b c d s[a] s[b] s[c] s[d] = s := by
  apply Vector.ext
  intro i hi
  simp only [put, Vector.getElem_ofFn, Fin.ext_iff, Fin.getElem_fin]
  repeat' split
  all_goals simp_all

theorem get_a : (put s a b c d A B C D)[a] = A := by simp [put]
theorem get_b (h : a ≠ b) : (put s a b c d A B C D)[b] = B := by simp [put, h.symm]
theorem get_c (h : a ≠ c) (h' : b ≠ c) : (put s a b c d A B C D)[c] = C := by
  simp [put, h.symm, h'.symm]
theorem get_d (h : a ≠ d) (h' : b ≠ d) (h'' : c ≠ d) : (put s a b c d A B C D)[d] = D := by
  simp [put, h.symm, h'.symm, h''.symm]

theorem set_a : (put s a b c d A B C D).set a X = put s a b c d X B C D := by
  apply Vector.ext; intro i hi
  simp only [put, Vector.getElem_set, Vector.getElem_ofFn, Fin.ext_iff]
  repeat' split
  all_goals first | rfl | omega
theorem set_b (h : a ≠ b) : (put s a b c d A B C D).set b X = put s a b c d A X C D := by
  apply Vector.ext; intro i hi
  simp only [put, Vector.getElem_set, Vector.getElem_ofFn, Fin.ext_iff, ne_eq] at *
  repeat' split
  all_goals first | rfl | omega
theorem set_c (h : a ≠ c) (h' : b ≠ c) : (put s a b c d A B C D).set c X = put s a b c d A B X D := by
  apply Vector.ext; intro i hi
  simp only [put, Vector.getElem_set, Vector.getElem_ofFn, Fin.ext_iff, ne_eq] at *
  repeat' split
  all_goals first | rfl | omega
theorem set_d (h : a ≠ d) (h' : b ≠ d) (h'' : c ≠ d) :
    (put s a b c d A B C D).set d X = put s a b c d A B C X := by
  apply Vector.ext; intro i hi
  simp only [put, Vector.getElem_set, Vector.getElem_ofFn, Fin.ext_iff, ne_eq] at *
  repeat' split
  all_goals first | rfl | omega
end

theorem qRound_eq (s : Words) (a b c d : Fin 16) (h : a ≠ b ∧ a ≠ c ∧ a ≠ d ∧ b ≠ c ∧ b ≠ d ∧ c ≠ d) :
    qRound s a b c d = Spec.ChaCha.qr s a b c d := by
  obtain ⟨hab, hac, had, hbc, hbd, hcd⟩ := h
  have main : ∀ A B C D : U32, qRound (put s a b c d A B C D) a b c d =
      put s a b c d (Spec.ChaCha.quarterRound A B C D).1 (Spec.ChaCha.quarterRound A B C D).2.1
        (Spec.ChaCha.quarterRound A B C D).2.2.1 (Spec.ChaCha.quarterRound A B C D).2.2.2 := by
    intro A B C D
    simp only [qRound, set_a, set_b hab, set_c hac hbc, set_d had hbd hcd,
      get_a, get_b hab, get_c hac hbc, get_d had hbd hcd, Spec.ChaCha.quarterRound,
      rotl32_eq _ (n := 16) (by decide) (by decide),
      rotl32_eq _ (n := 12) (by decide) (by decide), rotl32_eq _ (n := 8) (by decide) (by decide),
      rotl32_eq _ (n := 7) (by decide) (by decide)]
  have := main s[a] s[b] s[c] s[d]
  rw [put_self] at this
  rw [this]
  rfl

theorem innerBlock_eq (s : Words) : innerBlock s = Spec.ChaCha.doubleRound s := by
  simp only [innerBlock, Spec.ChaCha.doubleRound]
  repeat rw [qRound_eq _ _ _ _ _ (by decide)]

theorem rounds2_eq (n : Nat) (s : Words) : rounds2 n s = Nat.repeat Spec.ChaCha.doubleRound n s := by
  induction n generalizing s with
  | zero => rfl
  | succ n ih =>
    rw [rounds2, ih, innerBlock_eq]
    clear ih
    induction n with
    | zero => rfl
    | succ n ih => rw [Nat.repeat, Nat.repeat, ih]

end CT.ChaCha

namespace CT.ChaCha
open Spec.ChaCha (initState)

theorem loadWords_get (ws : List U32) (s : Words) (k i : Nat) (hi : i < 16) :
    (loadWords s k ws)[i] = if k ≤ i ∧ i < k + ws.length then ws.getD (i - k) 0 else s[i] := by
  induction ws generalizing s k with
  | nil => simp [loadWords]; omega
  | cons w ws ih =>
    rw [loadWords, ih, Vector.getElem_setIfInBounds]
    by_cases h1 : k + 1 ≤ i ∧ i < k + 1 + ws.length
    · rw [if_pos h1, if_pos (by simp; omega)]
      have : i - k = (i - (k + 1)) + 1 := by omega
      rw [this]; simp
    · rw [if_neg h1]
      by_cases h2 : k = i
      · subst h2; simp
      · rw [if_neg h2, if_neg (by simp; omega)]

theorem bytesToWordsLE_length : ∀ (n : Nat) (bs : List U8), bs.length = 4 * n →
    (bytesToWordsLE bs).length = n
  | 0, bs, h => by
    have : bs = [] := List.length_eq_zero_iff.mp (by omega)
    subst this; rfl
  | n + 1, b0 :: b1 :: b2 :: b3 :: bs, h => by
    simp [bytesToWordsLE, bytesToWordsLE_length n bs (by simp at h; omega)]
  | n + 1, [], h => by simp at h
  | n + 1, [_], h => by simp at h; omega
  | n + 1, [_, _], h => by simp at h; omega
  | n + 1, [_, _, _], h => by simp at h; omega

/-- The state of a context that was initialised with `key` and `nonce`. -/
def Keyed (cs : State) (key nonce : List U8) : Prop :=
  ∃ c, cs.state = initState key c nonce

theorem init_eq {key nonce : List U8} (hk : key.length = 32) (hn : nonce.length = 12) :
    (init key nonce).state = initState key 1 nonce := by
  have lk := bytesToWordsLE_length 8 key hk
  have ln := bytesToWordsLE_length 3 nonce hn
  apply Vector.ext
  intro i hi
  simp only [init, initState, Vector.getElem_ofFn, loadWords_get, Vector.getElem_set, lk, ln]
  by_cases h12 : i < 12
  · by_cases h4 : i < 4
    · have : i = 0 ∨ i = 1 ∨ i = 2 ∨ i = 3 := by omega
      rcases this with rfl | rfl | rfl | rfl <;> rfl
    · rw [if_neg (by omega), if_neg (by omega), if_pos (by omega), if_neg (by omega), if_pos h12]
  · by_cases h : i = 12
    · subst h; rfl
    · rw [if_pos (by omega), if_neg (by omega), if_neg h12, if_neg h]

theorem initState_set12 (key nonce : List U8) (c c' : U32) :
    (initState key c nonce).set 12 c' = initState key c' nonce := by
  apply Vector.ext
  intro i hi
  simp only [initState, Vector.getElem_set, Vector.getElem_ofFn]
  by_cases h : i = 12
  · subst h; rfl
  · rw [if_neg (fun h' => h h'.symm)]
    simp only [if_neg h]

theorem block_eq {cs : State} {key nonce : List U8} (h : Keyed cs key nonce) (r : Nat) (c : U32) :
    Keyed (block r cs c).1 key nonce ∧
    wordsToBytesLE (block r cs c).2.toList = Spec.ChaCha.block r key c nonce := by
  obtain ⟨c0, hc⟩ := h
  refine ⟨⟨c, ?_⟩, ?_⟩
  · simp [block, hc, initState_set12]
  · simp only [block, hc, initState_set12, Spec.ChaCha.block, rounds2_eq, Vector.toList_ofFn]

theorem ksLoop_eq {key nonce : List U8} (r : Nat) : ∀ (n : Nat) (cs : State) (c : U32) (acc : List U32),
    Keyed cs key nonce →
    Keyed (ksLoop r n cs c acc).1 key nonce ∧
    (ksLoop r n cs c acc).2.length = acc.length + 16 * n ∧
    wordsToBytesLE (ksLoop r n cs c acc).2 =
      wordsToBytesLE acc ++ Spec.ChaCha.keystream r key c nonce n := by
  intro n
  induction n with
  | zero => intro cs c acc h; simp [ksLoop, Spec.ChaCha.keystream, h]
  | succ n ih =>
    intro cs c acc h
    obtain ⟨h1, h2⟩ := block_eq h r c
    obtain ⟨i1, i2, i3⟩ := ih (block r cs c).1 (c + 1) (acc ++ (block r cs c).2.toList) h1
    refine ⟨i1, ?_, ?_⟩
    · rw [ksLoop, i2]; simp; omega
    · rw [ksLoop, i3, wordsToBytesLE_append, h2, Spec.ChaCha.keystream, List.append_assoc]

theorem keystream_length (r : Nat) (key nonce : List U8) (c : U32) (n : Nat) :
    (Spec.ChaCha.keystream r key c nonce n).length = 64 * n := by
  induction n generalizing c with
  | zero => rfl
  | succ n ih =>
    simp only [Spec.ChaCha.keystream, List.length_append, ih, Spec.ChaCha.block,
      wordsToBytesLE_length, List.length_ofFn]
    omega

theorem keystream_take (r : Nat) (key nonce : List U8) (c : U32) : ∀ (a b n : Nat), a ≤ b → n ≤ 64 * a →
    (Spec.ChaCha.keystream r key c nonce b).take n = (Spec.ChaCha.keystream r key c nonce a).take n := by
  intro a
  induction a generalizing c with
  | zero => intro b n _ hn; rw [show n = 0 by omega]; simp
  | succ a ih =>
    intro b n hab hn
    obtain ⟨b, rfl⟩ : ∃ k, b = k + 1 := ⟨b - 1, by omega⟩
    rw [Spec.ChaCha.keystream, Spec.ChaCha.keystream]
    have hl : (Spec.ChaCha.block r key c nonce).length = 64 := by
      have := keystream_length r key nonce c 1
      rw [Spec.ChaCha.keystream, Spec.ChaCha.keystream, List.append_nil] at this
      exact this
    rw [List.take_append, List.take_append, hl, ih (c + 1) b (n - 64) (by omega) (by omega)]

/-- The number of bytes the loops of `chacha_process_packet` really work on. -/
def effective (size : U64) : Nat := (size.setWidth 32).toInt.toNat

theorem effective_small {size : U64} (hs : size.toNat < 2 ^ 31) : effective size = size.toNat := by
  have : (size.setWidth 32).toNat = size.toNat := by
    rw [BitVec.toNat_setWidth]; omega
  rw [effective, BitVec.toInt_eq_toNat_of_lt (by rw [this]; omega), this]; rfl

theorem effective_le (size : U64) : effective size ≤ size.toNat := by
  rw [effective, BitVec.toInt_eq_toNat_cond, BitVec.toNat_setWidth]
  split <;> omega

theorem effective_large {size : U64} (h1 : 2 ^ 31 ≤ size.toNat) (h2 : size.toNat < 2 ^ 32) :
    effective size = 0 := by
  rw [effective, BitVec.toInt_eq_toNat_cond, BitVec.toNat_setWidth]
  split <;> omega

/-- What processing a packet does, for every size. -/
theorem processPacket_general {cs : State} {key nonce : List U8} (h : Keyed cs key nonce) (r : Nat)
    {io : Io} {size : U64} (hs : size.toNat ≤ 2 ^ 33 - 64) (hf : io.Fits (effective size)) :
    ∃ cs', Keyed cs' key nonce ∧ processPacket r cs io size = .ok (cs', io.xored
      ((Spec.ChaCha.keystream r key 1 nonce ((size.toNat + 63) / 64)).take (effective size))) := by
  obtain ⟨k1, k2, k3⟩ := ksLoop_eq r ((size.toNat + 63) / 64) cs 1 [] h
  refine ⟨_, k1, ?_⟩
  have e : ((size.toNat + 3) / 4 + 15) / 16 = (size.toNat + 63) / 64 := by omega
  have hle := effective_le size
  simp only [processPacket, e]
  rw [if_neg (by omega), if_neg (by omega)]
  change (Io.wordLoop _ (effective size + 1) (effective size) 0 0 io >>= _) = _
  generalize effective size = n at *
  have := Io.loops_xored (ksLoop r ((size.toNat + 63) / 64) cs 1 []).2 (io := io)
    (n + 1) n 0 0 [] rfl (by omega) (by rw [k2]; simp; omega) (hf.mono (by omega))
  rw [Io.xored_nil] at this
  simp only [List.nil_append, Nat.mul_zero, List.drop_zero, k3, wordsToBytesLE_nil] at this
  cases hw : Io.wordLoop (ksLoop r ((size.toNat + 63) / 64) cs 1 []).2 (n + 1) n 0 0 io with
  | ub w => rw [hw] at this; cases this
  | ok v =>
    rw [hw] at this
    simp only [Res.ok_bind] at this ⊢
    rw [this]
    rfl

/-- What processing a packet does, for sizes below 2^31. -/
theorem processPacket_eq {cs : State} {key nonce : List U8} (h : Keyed cs key nonce) (r : Nat)
    {io : Io} {size : U64} (hs : size.toNat < 2 ^ 31) (hf : io.Fits size.toNat) :
    ∃ cs', Keyed cs' key nonce ∧ processPacket r cs io size = .ok (cs', io.xored
      ((Spec.ChaCha.keystream r key 1 nonce ((size.toNat + 63) / 64)).take size.toNat)) := by
  have := processPacket_general h r (io := io) (size := size) (by omega) (by rw [effective_small hs]; exact hf)
  rwa [effective_small hs] at this

/-- Processing depends on the state only through key and nonce, and preserves them. -/
theorem ksLoop_congr {key nonce : List U8} (r : Nat) {cs cs2 : State} (h : Keyed cs key nonce)
    (h2 : Keyed cs2 key nonce) (n : Nat) (c : U32) (acc : List U32) :
    (ksLoop r n cs c acc).2 = (ksLoop r n cs2 c acc).2 := by
  induction n generalizing cs cs2 c acc with
  | zero => rfl
  | succ n ih =>
    simp only [ksLoop]
    obtain ⟨c1, e1⟩ := h
    obtain ⟨c2, e2⟩ := h2
    have : block r cs c = block r cs2 c := by simp [block, e1, e2, initState_set12]
    rw [this]

theorem processPacket_congr {key nonce : List U8} (r : Nat) {cs cs2 : State} (h : Keyed cs key nonce)
    (h2 : Keyed cs2 key nonce) (io : Io) (size : U64) :
    (do let x ← processPacket r cs io size; pure x.2 : Res Io) =
    (do let x ← processPacket r cs2 io size; pure x.2 : Res Io) := by
  simp only [processPacket]
  split
  · rfl
  split
  · rfl
  rw [ksLoop_congr r h h2]
  simp only [Res.bind_assoc]
  rfl

theorem processPacket_keyed {key nonce : List U8} {r : Nat} {cs cs' : State} {io io' : Io} {size : U64}
    (h : Keyed cs key nonce) (hp : processPacket r cs io size = .ok (cs', io')) :
    Keyed cs' key nonce := by
  simp only [processPacket] at hp
  split at hp
  · cases hp
  split at hp
  · cases hp
  obtain ⟨x, _, hx⟩ := Res.bind_eq_ok hp
  obtain ⟨y, _, hy⟩ := Res.bind_eq_ok hx
  cases hy
  exact (ksLoop_eq r _ cs 1 [] h).1

end CT.ChaCha
