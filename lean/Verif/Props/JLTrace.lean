import Verif.Model.JLTrace
import Verif.Props.JoyeLibert

/-!
# C111: the branches of Joye-Libert decryption
-/

namespace CT.Props.JoyeLibert
open CT CT.JL CT.Gmp CT.Spec.JL

theorem decLoopT_fst (p : Int) (n : Nat) : ∀ (m B C D : Int),
    (do let r ← decLoopT p n m B C D; return r.1 : Res Int) = decLoop p n m B C D := by
  induction n with
  | zero =>
    intro m B C D
    rw [decLoopT, decLoop]
    split <;> rfl
  | succ n ih =>
    intro m B C D
    rw [decLoopT, decLoop]
    cases powm C (2 ^ (n + 1)) p with
    | ub w => rfl
    | ok z =>
      cases powm D 2 p with
      | ub w => rfl
      | ok D' =>
        simp only [Res.ok_bind]
        by_cases h : z = 1
        · simp only [h, ne_eq, not_true_eq_false, if_false, ← ih]
          cases decLoopT p n m (B + B) C D' <;> rfl
        · simp only [ne_eq, h, not_false_eq_true, if_true]
          cases Gmp.mod (C * D) p with
          | ub w => rfl
          | ok C' =>
            simp only [Res.ok_bind, ← ih]
            cases decLoopT p n (m + B) (B + B) C' D' <;> rfl

/-- C111, the record is a record: without it, decryption is that of the model. -/
theorem jl_decrypt_traced_erase (same : Bool) (c p y : Int) (k : Nat) :
    (do let r ← decryptT same c p y k; return r.1 : Res Int) = decrypt same c p y k := by
  rw [decryptT, decrypt]
  cases divexact (p - 1) (2 ^ k) with
  | ub w => rfl
  | ok e =>
    simp only [Res.ok_bind]
    cases powm y (-e) p with
    | ub w => rfl
    | ok D =>
      simp only [Res.ok_bind]
      cases powm (if same = true then 0 else c) e p with
      | ub w => rfl
      | ok C => exact decLoopT_fst p (k - 1) 0 1 C D

/-- The number whose binary digits are given, the least significant one first. -/
def ofBits : List Bool → Int
  | [] => 0
  | b :: bs => (if b then 1 else 0) + 2 * ofBits bs

theorem decLoopT_bits (p : Int) (n : Nat) : ∀ (m B C D m' : Int) (L : List Bool),
    decLoopT p n m B C D = .ok (m', L) → m' = m + B * ofBits L ∧ L.length = n + 1 := by
  induction n with
  | zero =>
    intro m B C D m' L h
    rw [decLoopT] at h
    by_cases h1 : C = 1
    · simp [h1] at h
      obtain ⟨rfl, rfl⟩ := h
      simp [ofBits]
    · simp [h1] at h
      obtain ⟨rfl, rfl⟩ := h
      simp [ofBits]
  | succ n ih =>
    intro m B C D m' L h
    rw [decLoopT] at h
    obtain ⟨z, -, h⟩ := Res.bind_eq_ok h
    obtain ⟨D', -, h⟩ := Res.bind_eq_ok h
    by_cases h1 : z = 1
    · simp only [h1, ne_eq, not_true_eq_false, if_false] at h
      obtain ⟨⟨m1, L1⟩, h2, h3⟩ := Res.bind_eq_ok h
      obtain ⟨e1, e2⟩ := ih _ _ _ _ _ _ h2
      cases h3
      refine ⟨?_, by simp [e2]⟩
      simp only [ofBits, Bool.false_eq_true, if_false]
      rw [e1]; ring
    · simp only [ne_eq, h1, not_false_eq_true, if_true] at h
      obtain ⟨C', -, h⟩ := Res.bind_eq_ok h
      obtain ⟨⟨m1, L1⟩, h2, h3⟩ := Res.bind_eq_ok h
      obtain ⟨e1, e2⟩ := ih _ _ _ _ _ _ h2
      cases h3
      refine ⟨?_, by simp [e2]⟩
      simp only [ofBits, if_true]
      rw [e1]; ring

theorem decryptT_bits {same : Bool} {c p y : Int} {k : Nat} {m : Int} {L : List Bool} (hk : k ≠ 0)
    (h : decryptT same c p y k = .ok (m, L)) : m = ofBits L ∧ L.length = k := by
  rw [decryptT] at h
  obtain ⟨e, -, h⟩ := Res.bind_eq_ok h
  obtain ⟨D, -, h⟩ := Res.bind_eq_ok h
  obtain ⟨C, -, h⟩ := Res.bind_eq_ok h
  obtain ⟨h1, h2⟩ := decLoopT_bits _ _ _ _ _ _ _ _ h
  exact ⟨by rw [h1]; ring, by omega⟩

theorem ofBits_digit (L : List Bool) : ∀ i, i < L.length → L[i]? = some (decide (ofBits L / 2 ^ i % 2 = 1)) := by
  induction L with
  | nil => intro i h; simp at h
  | cons b L ih =>
    intro i h
    cases i with
    | zero => cases b <;> simp [ofBits, Int.add_emod]
    | succ i =>
      have h1 := ih i (by simpa using h)
      rw [List.getElem?_cons_succ, h1]
      have e : ofBits (b :: L) / 2 ^ (i + 1) = ofBits L / 2 ^ i := by
        rw [pow_succ', ← Int.ediv_ediv_of_nonneg (by decide)]
        congr 1
        cases b <;> simp only [ofBits, Bool.false_eq_true, if_false, if_true] <;> omega
      rw [e]

/-- C111, refuted in the strongest way: whatever is decrypted, with whatever key, the outcomes of the
conditions that decryption tests are the binary digits of the decrypted message. -/
theorem jl_decrypt_branches_are_digits (same : Bool) (c p y : Int) (k : Nat) (hk : k ≠ 0) (m : Int) (L : List Bool)
    (h : decryptT same c p y k = .ok (m, L)) :
    L = (List.range k).map fun i => decide (m / 2 ^ i % 2 = 1) := by
  obtain ⟨h1, h2⟩ := decryptT_bits hk h
  apply List.ext_getElem?
  intro i
  by_cases hi : i < k
  · rw [ofBits_digit L i (by omega), h1, List.getElem?_map, List.getElem?_range hi]
    rfl
  · rw [List.getElem?_eq_none (by omega), List.getElem?_eq_none (by simp; omega)]

example : [false, true] = (List.range 2).map fun i => decide ((2 : ℤ) / 2 ^ i % 2 = 1) :=
  jl_decrypt_branches_are_digits false 10 13 5 2 (by decide) 2 _ (by decide +kernel)

/-- So with an honest key, if the ciphertext of a `k`-bit message is decrypted and is no multiple of `p`,
the observed outcomes are the digits of the message: they give it to the observer without the key. -/
theorem jl_decrypt_branches_reveal {k p q : ℕ} {y : ℤ} (hk : k ≠ 0) (key : Key k p q y) (g : Env) (fuel : ℕ)
    (s s' : g.State) (m c : ℤ) (hm : 0 ≤ m ∧ m < 2 ^ k)
    (h : encrypt g fuel s m y (p * q) k = .ok (c, s')) (hc : ¬ (p : ℤ) ∣ c) :
    ∃ L, decryptT false c p y k = .ok (m, L) ∧ m = ofBits L := by
  have h1 := jl_round_trip_partial hk key g fuel s s' m c hm h hc
  rw [← jl_decrypt_traced_erase] at h1
  obtain ⟨⟨m', L⟩, h2, h3⟩ := Res.bind_eq_ok h1
  cases h3
  exact ⟨L, h2, (decryptT_bits hk h2).1⟩

/-- Non-trivial instance: message 2 encrypted with coin 3 under the key `(13, 7, 5)`. -/
example : Key 2 13 7 5 ∧ encrypt (constEnv 3) 1 () 2 5 ((13 : ℕ) * (7 : ℕ)) 2 = .ok (23, ()) ∧ ¬ ((13 : ℕ) : ℤ) ∣ 23 := by
  refine ⟨key13, ?_, by decide⟩
  simp [encrypt, pickX, constEnv, powm, Gmp.mod, Int.reduceToNat]

/-- C111, what holds: the number of conditions tested is the same for all ciphertexts. -/
theorem jl_decrypt_branches_partial (same : Bool) (c p y : Int) (k : Nat) (hk : k ≠ 0) (m : Int) (L : List Bool)
    (h : decryptT same c p y k = .ok (m, L)) : L.length = k := (decryptT_bits hk h).2

/-- Non-trivial instance. -/
example : decryptT false 10 13 5 2 = .ok (2, [false, true]) := by decide +kernel

/-- C111 is false: with one key two ciphertexts take different branches. -/
theorem jl_decrypt_branches_refuted : ¬ ∀ (k p q : ℕ) (y c c' m m' : Int) (L L' : List Bool), Key k p q y →
    decryptT false c p y k = .ok (m, L) → decryptT false c' p y k = .ok (m', L') → L = L' := by
  intro h
  have := h 2 13 7 5 10 1 2 0 [false, true] [false, false] key13 (by decide +kernel) (by decide +kernel)
  exact absurd this (by decide)

end CT.Props.JoyeLibert
